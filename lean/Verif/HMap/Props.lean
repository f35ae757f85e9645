import Verif.HMap.Refine
import Verif.HMap.TableSize
import Verif.HMap.SpecFacts
/-!
# C01 - C06: the properties of maps

The specification is `Verif/HMap/Spec.lean`: a map is a list of pairs in insertion order.  The theorems below speak about
`exec`/`execAll`, which run calls of the API on the model of the code.
-/
set_option linter.unusedSectionVars false
set_option linter.unusedSimpArgs false
namespace Verif.HMap
open Spec

variable {K V : Type} [KeyOps K] [ValOps V]

/-! ### Instances for the examples -/
namespace Ex
/-- Keys with a bad hash: all even keys collide, so do all odd ones. -/
instance : KeyOps Nat := ⟨fun k => BitVec.ofNat 64 (k % 2), fun a b => a == b, id⟩
/-- `none` is the dgo `Nil` value. -/
instance : ValOps (Option Nat) := ⟨fun a b => a == b, Option.isNone, id, id⟩
instance : LawfulKey Nat where
  refl a := by simp [KeyOps.eq]
  symm a b h := by simp only [KeyOps.eq, beq_iff_eq] at *; exact h.symm
  trans a b c h g := by simp only [KeyOps.eq, beq_iff_eq] at *; exact h.trans g
  hash a b h := by simp only [KeyOps.eq, beq_iff_eq] at h; rw [h]
  frz a := by simp [KeyOps.eq, KeyOps.freeze]
deriving instance DecidableEq for Spec.Out
abbrev Op := Spec.Op Nat (Option Nat)
abbrev W := World Nat (Option Nat)
end Ex

/-! ### Reachable heaps -/

/-- The heaps that programs (of regular calls) lead to. -/
def Reachable (w : World K V) : Prop :=
  ∃ ops : List (Op K V), (∀ op ∈ ops, Regular op) ∧ (execAll World.init ops).2 = w

theorem run_refines [LawfulKey K] {w : World K V} {css s} (h : WR w css s) (ops : List (Op K V))
    (hr : ∀ op ∈ ops, Regular op) :
    ∃ css', (execAll w ops).1 = (run s ops).1 ∧ WR (execAll w ops).2 css' (run s ops).2 := by
  induction ops generalizing w css s with
  | nil => exact ⟨css, rfl, h⟩
  | cons op ops ih =>
    obtain ⟨c1, h1, h2⟩ := step_refines h op (hr op (List.mem_cons_self ..))
    obtain ⟨c2, h3, h4⟩ := ih h2 (fun o ho => hr o (List.mem_cons_of_mem _ ho))
    refine ⟨c2, ?_, h4⟩
    simp only [execAll, run]
    rw [h1, h3]

theorem Reachable.rep [LawfulKey K] {w : World K V} (h : Reachable w) : ∃ css s, WR w css s := by
  obtain ⟨ops, hr, e⟩ := h
  obtain ⟨css, _, h2⟩ := run_refines World.init_WR ops hr
  exact ⟨css, _, e ▸ h2⟩

theorem execAll_append (w : World K V) (a b : List (Op K V)) :
    execAll w (a ++ b) = ((execAll w a).1 ++ (execAll (execAll w a).2 b).1, (execAll (execAll w a).2 b).2) := by
  induction a generalizing w with
  | nil => rfl
  | cons o a ih => simp only [List.cons_append, execAll, ih, List.cons_append]

theorem Reachable.exec {w : World K V} (h : Reachable w) (op : Op K V) (hr : Regular op) : Reachable (exec w op).2 := by
  obtain ⟨ops, ho, e⟩ := h
  refine ⟨ops ++ [op], ?_, ?_⟩
  · intro o hm
    rcases List.mem_append.1 hm with hm | hm
    · exact ho o hm
    · rw [List.mem_singleton.1 hm]; exact hr
  · rw [execAll_append, e]; rfl

namespace Ex
/-- A map of capacity 1 that has grown, with colliding keys. -/
def w3 : W := (execAll World.init [.new 1, .put 0 2 (some 7), .put 0 4 none, .put 0 6 none]).2
theorem w3_reachable : Reachable w3 := ⟨_, by simp [Regular], rfl⟩
/-- Two maps. -/
def w5 : W := (execAll World.init [.new 1, .put 0 2 (some 7), .new 3, .put 1 4 none, .put 1 2 (some 8)]).2
theorem w5_reachable : Reachable w5 := ⟨_, by simp [Regular], rfl⟩
/-- A map and one derived from it. -/
def w4 : W := (execAll World.init [.new 1, .put 0 2 (some 7), .put 0 4 none, .withEntry 0 6 (some 1)]).2
theorem w4_reachable : Reachable w4 := ⟨_, by simp [Regular, ValOps.isNil], rfl⟩
end Ex

/-- What a call returns. -/
abbrev obs (w : World K V) (op : Op K V) : Out K V := (exec w op).1

theorem WR.distinct {w : World K V} {css s} (h : WR w css s) {m : Nat} {a : AMap K V} (ha : s[m]? = some a) :
    DistinctKeys a.es := by
  have hm : m < w.maps.length := by rw [← h.lens]; exact (List.getElem?_eq_some_iff.1 ha).1
  obtain ⟨g, cs, _, h2, _, h4⟩ := h.each m hm
  rw [ha] at h2
  cases h2
  exact distinct_iff.2 h4.distinct

theorem WR.obs [LawfulKey K] {w : World K V} {css s} (h : WR w css s) (op : Op K V) (hr : Regular op) :
    obs w op = (step s op).1 := (step_refines h op hr).choose_spec.1

theorem WR.entries [LawfulKey K] {w : World K V} {css s} (h : WR w css s) {m : Nat} {es : List (K × V)}
    (he : HMap.obs w (.entries m) = .list es) : ∃ a, s[m]? = some a ∧ a.es = es := by
  rw [h.obs (.entries m) trivial] at he
  simp only [step] at he
  cases hs : s[m]? with
  | none => rw [hs] at he; cases he
  | some a => rw [hs] at he; cases he; exact ⟨a, rfl, rfl⟩

theorem WR.entries_of [LawfulKey K] {w : World K V} {css s} (h : WR w css s) {m : Nat} {a : AMap K V}
    (ha : s[m]? = some a) : HMap.obs w (.entries m) = .list a.es := by
  rw [h.obs (.entries m) trivial]; simp only [step, ha]

theorem WR.get_of [LawfulKey K] {w : World K V} {css s} (h : WR w css s) {m : Nat} {a : AMap K V}
    (ha : s[m]? = some a) (k : K) : HMap.obs w (.get m k) = .val (lookup k a.es) := by
  rw [h.obs (.get m k) trivial]; simp only [step, ha]

theorem WR.len_of [LawfulKey K] {w : World K V} {css s} (h : WR w css s) {m : Nat} {a : AMap K V}
    (ha : s[m]? = some a) : HMap.obs w (.len m) = .nat a.es.length := by
  rw [h.obs (.len m) trivial]; simp only [step, ha]

/-! ### C01: a map is an insertion-ordered dictionary -/

/-- **C01.**  Whatever program of map calls is run, on any number of maps created with any capacity, and for every key
type whose hash respects `Equals`: every call returns exactly what it returns on an insertion-ordered dictionary.  In
particular no call panics except as the specification says, and no call runs forever. -/
theorem C01_map_is_ordered_dictionary [LawfulKey K] (ops : List (Op K V)) (hr : ∀ op ∈ ops, Regular op) :
    (execAll World.init ops).1 = (run [] ops).1 := by
  obtain ⟨_, h, _⟩ := run_refines World.init_WR ops hr
  exact h

/-- A program with colliding keys, growth, overwriting and removal. -/
example : (execAll (World.init : Ex.W) [.new 1, .put 0 2 (some 7), .put 0 4 (some 8), .put 0 6 none, .put 0 2 (some 9),
      .remove 0 4, .get 0 2, .len 0, .entries 0]).1 =
    [.ref 0, .val none, .val none, .val none, .val (some (some 7)), .val (some (some 8)), .val (some (some 9)), .nat 2,
      .list [(2, some 9), (6, none)]] := by
  rw [C01_map_is_ordered_dictionary _ (by simp [Regular])]
  decide +kernel

/-- **C01, the dictionary laws of Put.**  `Put` returns the previous value, the key then has the new value and every
other key has the value it had. -/
theorem C01_get_after_put [LawfulKey K] {w w' : World K V} (hw : Reachable w) {m : Nat} {k : K} {v : V} {o : Option V}
    (h : exec w (.put m k v) = (.val o, w')) :
    obs w (.get m k) = .val o ∧
    ∀ k', obs w' (.get m k') = if KeyOps.eq k k' then .val (some v) else obs w (.get m k') := by
  obtain ⟨css, s, hs⟩ := hw.rep
  obtain ⟨css', h1, h2⟩ := step_refines hs (.put m k v) trivial
  rw [h] at h1 h2
  simp only [step] at h1 h2
  cases ha : s[m]? with
  | none => rw [ha] at h1; cases h1
  | some a =>
    rw [ha] at h1 h2
    simp only [mutate] at h1 h2
    cases hf : a.frozen with
    | true => rw [hf] at h1; cases h1
    | false =>
      rw [hf] at h1 h2
      cases h1
      refine ⟨hs.get_of ha k, fun k' => ?_⟩
      have hm : m < s.length := (List.getElem?_eq_some_iff.1 ha).1
      rw [h2.get_of (List.getElem?_set_self hm) k', hs.get_of ha k']
      dsimp only
      rw [lookup_insert]
      split <;> rfl

example : Reachable Ex.w3 ∧ exec Ex.w3 (.put 0 2 (some 9)) = (.val (some (some 7)), (exec Ex.w3 (.put 0 2 (some 9))).2) :=
  ⟨Ex.w3_reachable, by decide +kernel⟩

/-- **C01, the dictionary laws of Remove.** -/
theorem C01_get_after_remove [LawfulKey K] {w w' : World K V} (hw : Reachable w) {m : Nat} {k : K} {o : Option V}
    (h : exec w (.remove m k) = (.val o, w')) :
    obs w (.get m k) = .val o ∧
    ∀ k', obs w' (.get m k') = if KeyOps.eq k k' then .val none else obs w (.get m k') := by
  obtain ⟨css, s, hs⟩ := hw.rep
  obtain ⟨css', h1, h2⟩ := step_refines hs (.remove m k) trivial
  rw [h] at h1 h2
  simp only [step] at h1 h2
  cases ha : s[m]? with
  | none => rw [ha] at h1; cases h1
  | some a =>
    rw [ha] at h1 h2
    simp only [mutate] at h1 h2
    cases hf : a.frozen with
    | true => rw [hf] at h1; cases h1
    | false =>
      rw [hf] at h1 h2
      cases h1
      refine ⟨hs.get_of ha k, fun k' => ?_⟩
      have hm : m < s.length := (List.getElem?_eq_some_iff.1 ha).1
      rw [h2.get_of (List.getElem?_set_self hm) k', hs.get_of ha k']
      dsimp only
      rw [lookup_erase]
      split <;> rfl

example : Reachable Ex.w3 ∧ exec Ex.w3 (.remove 0 2) = (.val (some (some 7)), (exec Ex.w3 (.remove 0 2)).2) :=
  ⟨Ex.w3_reachable, by decide +kernel⟩

/-- **C01, the views agree.**  The length is the number of entries that iteration visits, no key is visited twice, and
`Get` and `ContainsKey` answer according to what iteration shows. -/
theorem C01_views_agree [LawfulKey K] {w : World K V} (hw : Reachable w) {m : Nat} {es : List (K × V)}
    (h : obs w (.entries m) = .list es) :
    obs w (.len m) = .nat es.length ∧ DistinctKeys es ∧
    ∀ k, obs w (.get m k) = .val ((es.find? fun e => KeyOps.eq k e.1).map (·.2)) ∧
      obs w (.containsKey m k) = .bool (es.any fun e => KeyOps.eq k e.1) := by
  obtain ⟨css, s, hs⟩ := hw.rep
  obtain ⟨a, ha, rfl⟩ := hs.entries h
  refine ⟨hs.len_of ha, hs.distinct ha, fun k => ⟨hs.get_of ha k, ?_⟩⟩
  rw [hs.obs (.containsKey m k) trivial]
  simp only [step, ha]
  rw [lookup_isSome]

example : Reachable Ex.w3 ∧ obs Ex.w3 (.entries 0) = .list [(2, some 7), (4, none), (6, none)] :=
  ⟨Ex.w3_reachable, by decide +kernel⟩

/-! ### C02: iteration order -/

/-- **C02, Put.**  Overwriting keeps all keys where they are, a new key goes last; whether the map grows or not. -/
theorem C02_put_order [LawfulKey K] {w w' : World K V} (hw : Reachable w) {m : Nat} {k : K} {v : V} {o : Option V}
    {es : List (K × V)} (he : obs w (.entries m) = .list es) (h : exec w (.put m k v) = (.val o, w')) :
    ∃ es', obs w' (.entries m) = .list es' ∧
      es'.map (·.1) = if es.any (fun e => KeyOps.eq k e.1) then es.map (·.1) else es.map (·.1) ++ [KeyOps.freeze k] := by
  obtain ⟨css, s, hs⟩ := hw.rep
  obtain ⟨a, ha, rfl⟩ := hs.entries he
  obtain ⟨css', h1, h2⟩ := step_refines hs (.put m k v) trivial
  rw [h] at h1 h2
  simp only [step, ha, mutate] at h1 h2
  have hm : m < s.length := (List.getElem?_eq_some_iff.1 ha).1
  cases hf : a.frozen with
  | true => rw [hf] at h1; cases h1
  | false =>
    rw [hf] at h1 h2
    refine ⟨_, h2.entries_of (List.getElem?_set_self hm), ?_⟩
    rw [keys_insert, lookup_isSome]

example : Reachable Ex.w3 ∧ obs Ex.w3 (.entries 0) = .list [(2, some 7), (4, none), (6, none)] ∧
    exec Ex.w3 (.put 0 8 (some 9)) = (.val none, (exec Ex.w3 (.put 0 8 (some 9))).2) :=
  ⟨Ex.w3_reachable, by decide +kernel, by decide +kernel⟩

/-- **C02, PutAll.**  All keys stay where they are, the new ones follow in the order of the argument. -/
theorem C02_putAll_order [LawfulKey K] {w w' : World K V} (hw : Reachable w) {m a : Nat}
    {es as : List (K × V)} (he : obs w (.entries m) = .list es) (hea : obs w (.entries a) = .list as)
    (h : exec w (.putAll m a) = (.unit, w')) :
    ∃ es', obs w' (.entries m) = .list es' ∧
      es'.map (·.1) = es.map (·.1) ++
        ((as.map (·.1)).filter fun k => !es.any fun e => KeyOps.eq k e.1).map KeyOps.freeze := by
  obtain ⟨css, s, hs⟩ := hw.rep
  obtain ⟨x, hx, rfl⟩ := hs.entries he
  obtain ⟨y, hy, rfl⟩ := hs.entries hea
  obtain ⟨css', h1, h2⟩ := step_refines hs (.putAll m a) trivial
  rw [h] at h1 h2
  simp only [step, hx, hy, mutate] at h1 h2
  have hm : m < s.length := (List.getElem?_eq_some_iff.1 hx).1
  have key : ∀ k, (!x.es.any fun e => KeyOps.eq k e.1) = (lookup k x.es).isNone := by
    intro k; rw [← lookup_isSome]; cases lookup k x.es <;> rfl
  simp only [key]
  by_cases hz : y.es = []
  · rw [if_pos hz] at h2
    exact ⟨_, h2.entries_of hx, by rw [hz]; simp⟩
  · rw [if_neg hz] at h1 h2
    cases hf : x.frozen with
    | true => rw [hf] at h1; cases h1
    | false =>
      rw [hf] at h1 h2
      refine ⟨_, h2.entries_of (List.getElem?_set_self hm), ?_⟩
      dsimp only
      rw [keys_insertAll _ _ (hs.distinct hy)]

example : Reachable Ex.w5 ∧ obs Ex.w5 (.entries 0) = .list [(2, some 7)] ∧
    obs Ex.w5 (.entries 1) = .list [(4, none), (2, some 8)] ∧
    exec Ex.w5 (.putAll 0 1) = (.unit, (exec Ex.w5 (.putAll 0 1)).2) :=
  ⟨Ex.w5_reachable, by decide +kernel, by decide +kernel, by decide +kernel⟩

/-- **C02, Remove.**  The other entries keep their relative order (and their values). -/
theorem C02_remove_order [LawfulKey K] {w w' : World K V} (hw : Reachable w) {m : Nat} {k : K} {o : Option V}
    {es : List (K × V)} (he : obs w (.entries m) = .list es) (h : exec w (.remove m k) = (.val o, w')) :
    obs w' (.entries m) = .list (es.filter fun e => !KeyOps.eq k e.1) := by
  obtain ⟨css, s, hs⟩ := hw.rep
  obtain ⟨a, ha, rfl⟩ := hs.entries he
  obtain ⟨css', h1, h2⟩ := step_refines hs (.remove m k) trivial
  rw [h] at h1 h2
  simp only [step, ha, mutate] at h1 h2
  have hm : m < s.length := (List.getElem?_eq_some_iff.1 ha).1
  cases hf : a.frozen with
  | true => rw [hf] at h1; cases h1
  | false =>
    rw [hf] at h1 h2
    exact h2.entries_of (List.getElem?_set_self hm)

example : Reachable Ex.w3 ∧ obs Ex.w3 (.entries 0) = .list [(2, some 7), (4, none), (6, none)] ∧
    exec Ex.w3 (.remove 0 4) = (.val (some none), (exec Ex.w3 (.remove 0 4)).2) :=
  ⟨Ex.w3_reachable, by decide +kernel, by decide +kernel⟩

/-- **C02, RemoveAll.** -/
theorem C02_removeAll_order [LawfulKey K] {w w' : World K V} (hw : Reachable w) {m : Nat} {ks : List K}
    {es : List (K × V)} (he : obs w (.entries m) = .list es) (h : exec w (.removeAll m ks) = (.unit, w')) :
    ∃ es', obs w' (.entries m) = .list es' ∧
      es'.map (·.1) = (es.map (·.1)).filter fun k' => !ks.any fun k => KeyOps.eq k k' := by
  obtain ⟨css, s, hs⟩ := hw.rep
  obtain ⟨a, ha, rfl⟩ := hs.entries he
  obtain ⟨css', h1, h2⟩ := step_refines hs (.removeAll m ks) trivial
  rw [h] at h1 h2
  simp only [step, ha, mutate] at h1 h2
  have hm : m < s.length := (List.getElem?_eq_some_iff.1 ha).1
  cases hf : a.frozen with
  | true => rw [hf] at h1; cases h1
  | false =>
    rw [hf] at h1 h2
    exact ⟨_, h2.entries_of (List.getElem?_set_self hm), keys_eraseAll _ _⟩

example : Reachable Ex.w3 ∧ obs Ex.w3 (.entries 0) = .list [(2, some 7), (4, none), (6, none)] ∧
    exec Ex.w3 (.removeAll 0 [6, 2]) = (.unit, (exec Ex.w3 (.removeAll 0 [6, 2])).2) :=
  ⟨Ex.w3_reachable, by decide +kernel, by decide +kernel⟩

/-- **C02, re-adding.**  A key that is removed and put again goes last. -/
theorem C02_readd_goes_last [LawfulKey K] {w w1 w2 : World K V} (hw : Reachable w) {m : Nat} {k : K} {v : V}
    {o o' : Option V} {es : List (K × V)} (he : obs w (.entries m) = .list es)
    (h1 : exec w (.remove m k) = (.val o, w1)) (h2 : exec w1 (.put m k v) = (.val o', w2)) :
    ∃ es', obs w2 (.entries m) = .list es' ∧
      es'.map (·.1) = (es.map (·.1)).filter (fun k' => !KeyOps.eq k k') ++ [KeyOps.freeze k] := by
  have e1 := C02_remove_order hw he h1
  have hw1 : Reachable w1 := by have := hw.exec (.remove m k) trivial; rw [h1] at this; exact this
  obtain ⟨es', h3, h4⟩ := C02_put_order hw1 e1 h2
  refine ⟨es', h3, ?_⟩
  rw [h4, if_neg, List.filter_map]
  · rfl
  · simp

example : Reachable Ex.w3 ∧ obs Ex.w3 (.entries 0) = .list [(2, some 7), (4, none), (6, none)] ∧
    exec Ex.w3 (.remove 0 2) = (.val (some (some 7)), (exec Ex.w3 (.remove 0 2)).2) ∧
    obs (exec Ex.w3 (.remove 0 2)).2 (.put 0 2 none) = .val none :=
  ⟨Ex.w3_reachable, by decide +kernel, by decide +kernel, by decide +kernel⟩

/-! ### C03: the non-mutating operations -/

/-- The calls documented to leave their receiver and argument alone. -/
def NonMutating : Op K V → Prop
  | .copy .. | .map .. | .merge .. | .withEntry .. | .without .. | .withoutAll .. => True
  | .get .. | .containsKey .. | .len .. | .entries .. => True
  | _ => False

theorem step_nonMutating (s : AWorld K V) (op : Op K V) (hn : NonMutating op) :
    (step s op).2 = s ∨ ∃ a, (step s op).2 = s ++ [a] := by
  cases op <;> simp only [NonMutating] at hn <;> simp only [step, mk]
  all_goals (repeat' split) <;> first | exact .inl rfl | exact .inr ⟨_, rfl⟩

/-- The calls on one map `m` that read or change it. -/
def On (m : Nat) : Op K V → Prop
  | .get n _ | .containsKey n _ | .len n | .entries n | .put n _ _ | .remove n _ | .removeAll n _ | .freeze n => n = m
  | _ => False

theorem On.regular {m : Nat} {q : Op K V} (h : On m q) : Regular q := by
  cases q <;> first | trivial | cases h

theorem step_on {s s' : AWorld K V} {m : Nat} (h : s[m]? = s'[m]?) {q : Op K V} (hq : On m q) :
    (step s q).1 = (step s' q).1 := by
  cases q <;> simp only [On] at hq <;> subst hq <;> simp only [step, h]
  all_goals
    split
    · first | rfl | (simp only [mutate]; split <;> rfl)
    · rfl

/-- **C03, the receiver and the argument.**  After a non-mutating call, every map that existed before answers every
call the way it would have before: reading, and also mutating calls (so its frozen state is the same too). -/
theorem C03_existing_maps_untouched [LawfulKey K] {w : World K V} (hw : Reachable w) (op : Op K V) (hr : Regular op)
    (hn : NonMutating op) (m : Nat) (hm : m < w.maps.length) (q : Op K V) (hq : On m q) :
    obs (exec w op).2 q = obs w q := by
  obtain ⟨css, s, hs⟩ := hw.rep
  obtain ⟨css', _, h2⟩ := step_refines hs op hr
  rw [h2.obs q hq.regular, hs.obs q hq.regular]
  have hms : m < s.length := by rw [hs.lens]; exact hm
  apply step_on _ hq
  rcases step_nonMutating s op hn with h | ⟨a, h⟩ <;> rw [h]
  rw [List.getElem?_append_left hms]


example : Reachable Ex.w3 ∧ obs Ex.w3 (.withEntry 0 8 (some 1)) = .ref 1 ∧
    obs Ex.w3 (.put 0 2 none) = .val (some (some 7)) :=
  ⟨Ex.w3_reachable, by decide +kernel, by decide +kernel⟩

theorem get_mk [LawfulKey K] {w : World K V} {css s} {a : AMap K V} (h : WR w css (s ++ [a])) :
    HMap.obs w (.entries s.length) = .list a.es :=
  h.entries_of (by simp)

/-- **C03, With** (for a value other than `Nil`; `Nil` is the subject of `C03_with_nil_is_lost`).  `With` always yields
a map, in which the key has the value (or one that `Equals` it, when the receiver already had that), every other key has
the value of the receiver, and the order is that of `Put`. -/
theorem C03_with_partial [LawfulKey K] {w : World K V} (hw : Reachable w) {m : Nat} {k : K} {v : V}
    (hv : ValOps.isNil v = false) {es : List (K × V)} (he : obs w (.entries m) = .list es) :
    ∃ r w' es' v', exec w (.withEntry m k v) = (.ref r, w') ∧ obs w' (.entries r) = .list es' ∧
      (v' = v ∨ ValOps.veq v v' = true) ∧
      (∀ k', lookup k' es' = if KeyOps.eq k k' then some v' else lookup k' es) ∧
      es'.map (·.1) = if es.any (fun e => KeyOps.eq k e.1) then es.map (·.1) else es.map (·.1) ++ [KeyOps.freeze k] := by
  obtain ⟨css, s, hs⟩ := hw.rep
  obtain ⟨a, ha, rfl⟩ := hs.entries he
  obtain ⟨css', h1, h2⟩ := step_refines hs (.withEntry m k v) hv
  generalize hx : exec w (.withEntry m k v) = x at h1 h2 ⊢
  obtain ⟨o, w'⟩ := x
  simp only [step, ha] at h1 h2
  have mkcase : o = (mk s (⟨Spec.insert a.es k v, a.frozen⟩ : AMap K V)).1 →
      WR w' css' (mk s (⟨Spec.insert a.es k v, a.frozen⟩ : AMap K V)).2 → _ := fun h1 h2 =>
    (⟨s.length, w', Spec.insert a.es k v, v, by rw [h1]; rfl, get_mk h2, .inl rfl, fun k' => lookup_insert _ _ _ _, by
      rw [keys_insert, lookup_isSome]⟩ : ∃ r w'' es' v', (o, w') = (.ref r, w'') ∧ obs w'' (.entries r) = .list es' ∧
      (v' = v ∨ ValOps.veq v v' = true) ∧
      (∀ k', lookup k' es' = if KeyOps.eq k k' then some v' else lookup k' a.es) ∧
      es'.map (·.1) = if a.es.any (fun e => KeyOps.eq k e.1) then a.es.map (·.1) else a.es.map (·.1) ++ [KeyOps.freeze k])
  cases hl : lookup k a.es with
  | none =>
    rw [hl] at h1 h2
    exact mkcase h1 h2
  | some u =>
    rw [hl] at h1 h2
    dsimp only at h1 h2
    by_cases hq : ValOps.veq v u = true
    · rw [if_pos hq] at h1 h2
      refine ⟨m, w', a.es, u, by rw [h1], h2.entries_of ha, .inr hq, ?_, ?_⟩
      · intro k'
        split
        · rename_i hk
          rw [← hl]
          unfold lookup
          congr 2
          funext e
          exact (LawfulKey.congr hk e.1).symm
        · rfl
      · rw [← lookup_isSome, hl]; rfl
    · rw [if_neg hq] at h1 h2
      exact mkcase h1 h2

example : Reachable Ex.w3 ∧ obs Ex.w3 (.entries 0) = .list [(2, some 7), (4, none), (6, none)] ∧
    ValOps.isNil (some 5) = false :=
  ⟨Ex.w3_reachable, by decide +kernel, rfl⟩

/-- **C03 fails for `With(k, nil)`**: on a map that has a table and lacks the key, `With` of the `Nil` value returns the
receiver, without the key: `Nil.Equals` of the Go `nil` that `Get` returned is true (internal/map.go:804). -/
theorem C03_with_nil_is_lost :
    Reachable Ex.w3 ∧ obs Ex.w3 (.entries 0) = .list [(2, some 7), (4, none), (6, none)] ∧
      obs Ex.w3 (.withEntry 0 8 none) = .ref 0 ∧
      obs (exec Ex.w3 (.withEntry 0 8 none)).2 (.containsKey 0 8) = .bool false :=
  ⟨Ex.w3_reachable, by decide +kernel, by decide +kernel, by decide +kernel⟩

/-- **C03, Without.** -/
theorem C03_without [LawfulKey K] {w : World K V} (hw : Reachable w) {m : Nat} {k : K} {es : List (K × V)}
    (he : obs w (.entries m) = .list es) :
    ∃ r w', exec w (.without m k) = (.ref r, w') ∧
      obs w' (.entries r) = .list (es.filter fun e => !KeyOps.eq k e.1) := by
  obtain ⟨css, s, hs⟩ := hw.rep
  obtain ⟨a, ha, rfl⟩ := hs.entries he
  obtain ⟨css', h1, h2⟩ := step_refines hs (.without m k) trivial
  generalize hx : exec w (.without m k) = x at h1 h2 ⊢
  obtain ⟨o, w'⟩ := x
  simp only [step, ha] at h1 h2
  by_cases hl : (lookup k a.es).isSome = true
  · rw [if_pos hl] at h1 h2
    exact ⟨s.length, w', by rw [h1]; rfl, get_mk h2⟩
  · rw [if_neg hl] at h1 h2
    refine ⟨m, w', by rw [h1], ?_⟩
    rw [h2.entries_of ha]
    congr 1
    refine (List.filter_eq_self.2 fun e he => ?_).symm
    rw [lookup_isSome, List.any_eq_true] at hl
    cases hk : KeyOps.eq k e.1
    · rfl
    · exact absurd ⟨e, he, hk⟩ hl

example : Reachable Ex.w3 ∧ obs Ex.w3 (.entries 0) = .list [(2, some 7), (4, none), (6, none)] :=
  ⟨Ex.w3_reachable, by decide +kernel⟩

/-- **C03, WithoutAll.** -/
theorem C03_withoutAll [LawfulKey K] {w : World K V} (hw : Reachable w) {m : Nat} {ks : List K} {es : List (K × V)}
    (he : obs w (.entries m) = .list es) :
    ∃ r w', exec w (.withoutAll m ks) = (.ref r, w') ∧
      obs w' (.entries r) = .list (es.filter fun e => !ks.any fun k => KeyOps.eq k e.1) := by
  obtain ⟨css, s, hs⟩ := hw.rep
  obtain ⟨a, ha, rfl⟩ := hs.entries he
  obtain ⟨css', h1, h2⟩ := step_refines hs (.withoutAll m ks) trivial
  generalize hx : exec w (.withoutAll m ks) = x at h1 h2 ⊢
  obtain ⟨o, w'⟩ := x
  simp only [step, ha] at h1 h2
  by_cases hl : (ks.any fun k => (lookup k a.es).isSome) = true
  · rw [if_pos hl] at h1 h2
    refine ⟨s.length, w', by rw [h1]; rfl, ?_⟩
    rw [get_mk h2]
    dsimp only
    rw [eraseAll_eq_filter]
  · rw [if_neg hl] at h1 h2
    refine ⟨m, w', by rw [h1], ?_⟩
    rw [h2.entries_of ha]
    congr 1
    refine (List.filter_eq_self.2 fun e he => ?_).symm
    cases hk : ks.any fun k => KeyOps.eq k e.1
    · rfl
    · obtain ⟨k, hk1, hk2⟩ := List.any_eq_true.1 hk
      refine absurd (List.any_eq_true.2 ⟨k, hk1, ?_⟩) hl
      rw [lookup_isSome, List.any_eq_true]
      exact ⟨e, he, hk2⟩

example : Reachable Ex.w3 ∧ obs Ex.w3 (.entries 0) = .list [(2, some 7), (4, none), (6, none)] :=
  ⟨Ex.w3_reachable, by decide +kernel⟩

/-- **C03, Merge.**  The value of the argument wins; the keys of the receiver come first, in their order, followed by
the new keys of the argument, in their order. -/
theorem C03_merge [LawfulKey K] {w : World K V} (hw : Reachable w) {m a : Nat} {es as : List (K × V)}
    (he : obs w (.entries m) = .list es) (hea : obs w (.entries a) = .list as) :
    ∃ r w' es', exec w (.merge m a) = (.ref r, w') ∧ obs w' (.entries r) = .list es' ∧
      (∀ k, lookup k es' = (lookup k as).or (lookup k es)) ∧
      (es = [] ∧ es' = as ∨
       es'.map (·.1) = es.map (·.1) ++
        ((as.map (·.1)).filter fun k => !es.any fun e => KeyOps.eq k e.1).map KeyOps.freeze) := by
  obtain ⟨css, s, hs⟩ := hw.rep
  obtain ⟨x, hx, rfl⟩ := hs.entries he
  obtain ⟨y, hy, rfl⟩ := hs.entries hea
  obtain ⟨css', h1, h2⟩ := step_refines hs (.merge m a) trivial
  generalize hx : exec w (.merge m a) = z at h1 h2 ⊢
  obtain ⟨o, w'⟩ := z
  simp only [step, *] at h1 h2
  by_cases hz : y.es = [] ∨ m = a
  · rw [if_pos hz] at h1 h2
    refine ⟨m, w', x.es, by rw [h1], h2.entries_of ‹_›, ?_, .inr ?_⟩
    · intro k
      rcases hz with hz | rfl
      · rw [hz]; rfl
      · rw [‹s[m]? = some x›] at hy; cases hy
        cases lookup k x.es <;> rfl
    · rcases hz with hz | rfl
      · rw [hz]; simp
      · rw [‹s[m]? = some x›] at hy; cases hy
        rw [List.filter_eq_nil_iff.2]
        · simp
        · intro k hk
          obtain ⟨e, h3, rfl⟩ := List.mem_map.1 hk
          simp only [Bool.not_eq_true', Bool.not_eq_false, List.any_eq_true]
          exact ⟨e, h3, LawfulKey.refl _⟩
  · rw [if_neg hz] at h1 h2
    by_cases hz2 : x.es = []
    · rw [if_pos hz2] at h1 h2
      refine ⟨a, w', y.es, by rw [h1], h2.entries_of hy, ?_, .inl ⟨hz2, rfl⟩⟩
      intro k; rw [hz2, lookup_nil]; cases lookup k y.es <;> rfl
    · rw [if_neg hz2] at h1 h2
      refine ⟨s.length, w', _, by rw [h1]; rfl, get_mk h2, ?_, .inr ?_⟩
      · intro k; exact lookup_insertAll _ _ _ (hs.distinct hy)
      · dsimp only
        rw [keys_insertAll _ _ (hs.distinct hy)]
        congr 2
        apply List.filter_congr
        intro k _
        rw [← lookup_isSome]
        cases lookup k x.es <;> rfl

example : Reachable Ex.w5 ∧ obs Ex.w5 (.entries 0) = .list [(2, some 7)] ∧
    obs Ex.w5 (.entries 1) = .list [(4, none), (2, some 8)] :=
  ⟨Ex.w5_reachable, by decide +kernel, by decide +kernel⟩

/-- **C03, Map.**  A new map with the same keys in the same order and the mapped values. -/
theorem C03_map [LawfulKey K] {w : World K V} (hw : Reachable w) {m : Nat} {fn : K → V → V} {es : List (K × V)}
    (he : obs w (.entries m) = .list es) :
    ∃ r w', exec w (.map m fn) = (.ref r, w') ∧ r = w.maps.length ∧
      obs w' (.entries r) = .list (es.map fun e => (e.1, fn e.1 e.2)) := by
  obtain ⟨css, s, hs⟩ := hw.rep
  obtain ⟨a, ha, rfl⟩ := hs.entries he
  obtain ⟨css', h1, h2⟩ := step_refines hs (.map m fn) trivial
  generalize hx : exec w (.map m fn) = x at h1 h2 ⊢
  obtain ⟨o, w'⟩ := x
  simp only [step, ha] at h1 h2
  exact ⟨s.length, w', by rw [h1]; rfl, hs.lens, get_mk h2⟩

example : Reachable Ex.w3 ∧ obs Ex.w3 (.entries 0) = .list [(2, some 7), (4, none), (6, none)] :=
  ⟨Ex.w3_reachable, by decide +kernel⟩

/-- **C03, Copy.**  Same keys in the same order, every value frozen or thawed.  A new map, except for a frozen copy of
a frozen map, which is the map itself. -/
theorem C03_copy [LawfulKey K] {w : World K V} (hw : Reachable w) {m : Nat} {frozen : Bool} {es : List (K × V)}
    (he : obs w (.entries m) = .list es) :
    ∃ r w', exec w (.copy m frozen) = (.ref r, w') ∧
      (r = w.maps.length ∧
        obs w' (.entries r) = .list (es.map fun e => (e.1, if frozen then ValOps.freeze e.2 else ValOps.thaw e.2)) ∨
       r = m ∧ frozen = true ∧ w' = w ∧ ∀ k v, obs w (.put m k v) = .panic) := by
  obtain ⟨css, s, hs⟩ := hw.rep
  obtain ⟨a, ha, rfl⟩ := hs.entries he
  obtain ⟨css', h1, h2⟩ := step_refines hs (.copy m frozen) trivial
  generalize hx : exec w (.copy m frozen) = x at h1 h2 ⊢
  obtain ⟨o, w'⟩ := x
  simp only [step, ha] at h1 h2
  by_cases hf : (frozen && a.frozen) = true
  · rw [if_pos hf] at h1 h2
    have hf' := Bool.and_eq_true_iff.1 hf
    refine ⟨m, w', by rw [h1], .inr ⟨rfl, hf'.1, ?_, ?_⟩⟩
    · obtain ⟨g, cs, _, h4, h5, _⟩ := hs.each m (by rw [← hs.lens]; exact (List.getElem?_eq_some_iff.1 ha).1)
      rw [ha] at h4; cases h4
      have hc : copy m frozen w = .ok m w := by
        rw [copy, M.bind_ok (getMap_run h5.map), if_pos (by simpa using hf)]; rfl
      have : exec w (.copy m frozen) = (.ref m, w) := by
        rw [HMap.exec, if_pos (by simp [Op.refs, h5.lt])]
        have : call (.copy m frozen) w = .ok (.ref m) w := by rw [call, M.bind_ok hc]; rfl
        rw [this]
      rw [this] at hx; cases hx; rfl
    · intro k v
      rw [hs.obs (.put m k v) trivial]
      simp only [step, ha, mutate, hf'.2]
      rfl
  · rw [if_neg hf] at h1 h2
    exact ⟨s.length, w', by rw [h1]; rfl, .inl ⟨hs.lens, get_mk h2⟩⟩

example : Reachable Ex.w3 ∧ obs Ex.w3 (.entries 0) = .list [(2, some 7), (4, none), (6, none)] :=
  ⟨Ex.w3_reachable, by decide +kernel⟩

/-! ### C04: no shared mutable state -/

/-- The calls that change map `m`. -/
def Mutates (m : Nat) : Op K V → Prop
  | .put n .. | .putAll n _ | .remove n _ | .removeAll n _ | .freeze n => n = m
  | _ => False

theorem step_other (s : AWorld K V) (op : Op K V) (m : Nat) (hm : m < s.length) (h : ¬ Mutates m op) :
    (step s op).2[m]? = s[m]? := by
  cases op <;> simp only [Mutates] at h <;> simp only [step, mk]
  all_goals
    repeat' split
    all_goals first
      | rfl
      | exact List.getElem?_append_left hm
      | (simp only [mutate]; split <;> first | rfl | exact List.getElem?_set_ne h)
      | exact List.getElem?_set_ne h

theorem step_length (s : AWorld K V) (op : Op K V) : s.length ≤ (step s op).2.length := by
  cases op <;> simp only [step, mk]
  all_goals
    repeat' split
    all_goals first
      | exact Nat.le_refl _
      | (simp only [mutate]; split <;> simp)
      | simp

theorem run_other (s : AWorld K V) (ops : List (Op K V)) (m : Nat) (hm : m < s.length)
    (h : ∀ op ∈ ops, ¬ Mutates m op) : (run s ops).2[m]? = s[m]? := by
  induction ops generalizing s with
  | nil => rfl
  | cons op ops ih =>
    simp only [run]
    rw [ih _ (Nat.lt_of_lt_of_le hm (step_length s op)) fun o ho => h o (List.mem_cons_of_mem _ ho),
      step_other s op m hm (h op (List.mem_cons_self ..))]

/-- **C04.**  Take any map of any program, derived from other maps or not, or the source of derived maps.  Whatever is
done afterwards to all other maps, by any number of calls, this map answers every call as if nothing had been done. -/
theorem C04_maps_are_independent [LawfulKey K] {w : World K V} (hw : Reachable w) {m : Nat} (hm : m < w.maps.length)
    (ops : List (Op K V)) (hr : ∀ op ∈ ops, Regular op) (hn : ∀ op ∈ ops, ¬ Mutates m op) (q : Op K V) (hq : On m q) :
    obs (execAll w ops).2 q = obs w q := by
  obtain ⟨css, s, hs⟩ := hw.rep
  obtain ⟨css', _, h2⟩ := run_refines hs ops hr
  rw [h2.obs q hq.regular, hs.obs q hq.regular]
  exact step_on (run_other s ops m (by rw [hs.lens]; exact hm) hn) hq

/-- Map 1 is derived from map 0 with `With`; then map 0 is changed. -/
example : Reachable Ex.w4 ∧ 1 < Ex.w4.maps.length ∧
    (∀ op ∈ ([.put 0 2 none, .remove 0 4, .put 0 8 none] : List Ex.Op), ¬ Mutates 1 op) ∧
    obs Ex.w4 (.entries 1) = .list [(2, some 7), (4, none), (6, some 1)] :=
  ⟨Ex.w4_reachable, by decide +kernel, by simp [Mutates], by decide +kernel⟩

/-! ### C05: maps built from lists -/

/-- **C05, for lists without repeated keys.**  The map has exactly the pairs of the list, in order: its length is the
number of keys, `Get` finds the value of each key and nothing for any other key.

Missing from the full claim: lists with repeated keys, for which it is false (`C05_repeated_keys_fail`). -/
theorem C05_map_from_list_partial [LawfulKey K] {w : World K V} (hw : Reachable w) {kvs : List (K × V)} {frozen : Bool}
    (hd : DistinctKeys kvs) :
    ∃ r w', exec w (.ofList kvs frozen) = (.ref r, w') ∧ r = w.maps.length ∧
      obs w' (.entries r) = .list kvs ∧ obs w' (.len r) = .nat kvs.length ∧
      (∀ e ∈ kvs, obs w' (.get r e.1) = .val (some e.2)) ∧
      (∀ k, (∀ e ∈ kvs, KeyOps.eq k e.1 = false) → obs w' (.get r k) = .val none) := by
  obtain ⟨css, s, hs⟩ := hw.rep
  obtain ⟨css', h1, h2⟩ := step_refines hs (.ofList kvs frozen) hd
  generalize hx : exec w (.ofList kvs frozen) = x at h1 h2 ⊢
  obtain ⟨o, w'⟩ := x
  simp only [step] at h1 h2
  have hget : (s ++ [(⟨kvs, frozen⟩ : AMap K V)])[s.length]? = some ⟨kvs, frozen⟩ := by simp
  refine ⟨s.length, w', by rw [h1]; rfl, hs.lens, get_mk h2, h2.len_of hget, ?_, ?_⟩
  · intro e he
    rw [h2.get_of hget]
    congr 1
    obtain ⟨A, B, rfl⟩ := List.append_of_mem he
    refine lookup_hit ?_ (LawfulKey.refl _)
    intro a ha
    rw [LawfulKey.comm]
    exact (List.pairwise_append.1 hd).2.2 a ha e (List.mem_cons_self ..)
  · intro k hk
    rw [h2.get_of hget]
    congr 1
    exact lookup_miss hk

example : DistinctKeys ([(2, some 7), (4, none), (6, some 1)] : List (Nat × Option Nat)) := by
  simp [DistinctKeys, KeyOps.eq]

/-- **C05 fails for repeated keys.**  `vf.Map(2, 7, 2, 8)` has length 2, iteration shows the key twice, and `Remove` of
the key (here on a mutable map) leaves the key in the map. -/
theorem C05_repeated_keys_fail :
    let w : Ex.W := (execAll World.init [.ofList [(2, some 7), (2, some 8)] false]).2
    obs w (.len 0) = .nat 2 ∧ obs w (.entries 0) = .list [(2, some 7), (2, some 8)] ∧
      obs w (.get 0 2) = .val (some (some 8)) ∧
      obs (exec w (.remove 0 2)).2 (.get 0 2) = .val (some (some 7)) := by decide +kernel

/-- **C05/C04 fail for maps built from the entries of another map.**  `ToMapFromEntries` takes over the nodes of the
source map: here map 0 = {2: 7, 3: 8} and map 1 is built from its second entry only followed by its first; iteration
over map 0 then does not end. -/
theorem C05_entries_are_shared :
    let w : Ex.W := (execAll World.init [.new 4, .put 0 2 (some 7), .put 0 3 (some 8)]).2
    obs w (.entries 0) = .list [(2, some 7), (3, some 8)] ∧
    ((toMapFromEntries [.node 1, .node 0] false w).final.map fun r => (r.1, obs r.2 (.entries 0))) =
      some (some 1, .diverge) := by decide +kernel

/-! ### C06: the table -/

theorem toInt_nonneg (x : BitVec 64) (h : 0 ≤ x.toInt) : x.toInt = x.toNat := by
  rw [BitVec.toInt_eq_toNat_cond] at h ⊢
  split at h
  · rw [if_pos (by assumption)]
  · have := x.isLt; omega

/-- **C06, the size of the table.**  For every 64-bit capacity, negative ones included: a power of two, at most 2^30,
at least the capacity when that is at most 2^30, and not more than needed. -/
theorem C06_table_size (cap : BitVec 64) :
    ∃ k ≤ 30, (tableSizeForW cap).toNat = 2 ^ k ∧
      (cap.toInt ≤ 2 ^ 30 → cap.toInt ≤ 2 ^ k) ∧ (2 ^ 30 < cap.toInt → k = 30) ∧
      (0 < k → 2 ^ (k - 1) < cap.toInt) := by
  obtain ⟨k, h1, h2, h3, h4⟩ := tableSizeForW_spec cap
  have hp : (0 : Int) < 2 ^ k := by exact_mod_cast Nat.two_pow_pos k
  refine ⟨k, h1, h2, ?_, ?_, ?_⟩
  · intro h
    by_cases hn : 0 ≤ cap.toInt
    · have e := toInt_nonneg cap (by omega)
      have := (h3 hn).1 (by omega)
      rw [e]; exact_mod_cast this
    · omega
  · intro h
    have hn : 0 ≤ cap.toInt := by omega
    have e := toInt_nonneg cap (by omega)
    exact (h3 hn).2.1 (by omega)
  · intro h
    have hn : 1 ≤ cap.toInt := by
      by_cases h5 : cap.toInt < 1
      · have := h4 h5; omega
      · omega
    have e := toInt_nonneg cap (by omega)
    have := (h3 (by omega)).2.2 h
    rw [e]; exact_mod_cast this

example : (tableSizeForW 65).toNat = 128 ∧ (tableSizeForW (-5)).toNat = 1 ∧ (tableSizeForW (2 ^ 40)).toNat = 2 ^ 30 := by
  decide +kernel

/-- **C06, the slot.**  For every table size the code makes and every hash code, the slot is inside the table. -/
theorem C06_slot_inside (cap h : BitVec 64) : slot (tableSizeForW cap).toNat h < (tableSizeForW cap).toNat := by
  obtain ⟨k, h1, h2, _⟩ := tableSizeForW_spec cap
  refine slot_lt ?_ ?_ h
  · rw [h2]; exact Nat.two_pow_pos k
  · rw [h2]; exact Nat.pow_le_pow_right (by omega) h1

example : slot 8 (-1) < 8 ∧ slot 8 (2 ^ 63) = 0 ∧ slot 8 (5 * 2 ^ 16) = 5 := by decide +kernel

/-- **C06, every table of every program.**  In a reachable heap the table of each map is empty (nil) or its size is
between 1 and 2^30, and every hash code selects a slot of it. -/
theorem C06_reachable_tables [LawfulKey K] {w : World K V} (hw : Reachable w) {m : Nat} {g : HM}
    (hg : w.maps[m]? = some g) (hne : g.table ≠ []) (h : BitVec 64) : slot g.table.length h < g.table.length := by
  obtain ⟨css, s, hs⟩ := hw.rep
  obtain ⟨g', cs, _, _, h5, _⟩ := hs.each m (List.getElem?_eq_some_iff.1 hg).1
  have := h5.map; rw [hg] at this; cases this
  exact slot_lt (List.length_pos_iff.2 hne) h5.core.size h

example : Reachable Ex.w3 ∧ (Ex.w3.maps[0]?.map (·.table.length)) = some 4 := ⟨Ex.w3_reachable, by decide +kernel⟩

/-! ### C12: mutators of a frozen map -/

/-- **C12, maps.**  In every heap: `Put`, `Remove`, `RemoveAll`, and `PutAll` with a map that is not empty, panic when the
receiver is frozen, and the heap is exactly as before. -/
theorem C12_frozen_map_mutators_panic {w : World K V} {m : Nat} {g : HM} (hg : w.maps[m]? = some g) (hf : g.frozen = true) :
    (∀ k v, exec w (.put m k v) = (.panic, w)) ∧ (∀ k, exec w (.remove m k) = (.panic, w)) ∧
    (∀ ks, exec w (.removeAll m ks) = (.panic, w)) ∧
    (∀ a ga, w.maps[a]? = some ga → ga.len ≠ 0 → exec w (.putAll m a) = (.panic, w)) := by
  have hl := (List.getElem?_eq_some_iff.1 hg).1
  have hm : getMap m w = .ok g w := getMap_run hg
  refine ⟨fun k v => ?_, fun k => ?_, fun ks => ?_, fun a ga ha hne => ?_⟩
  · have : put m k v w = .panic w := by rw [put, M.bind_ok hm, if_pos hf]; rfl
    have : call (.put m k v) w = .panic w := by simp only [call]; rw [M.bind_panic this]
    simp [exec, Op.refs, hl, this]
  · have : remove m k w = .panic w := by rw [remove, M.bind_ok hm, if_pos hf]; rfl
    have : call (.remove m k) w = .panic w := by simp only [call]; rw [M.bind_panic this]
    simp [exec, Op.refs, hl, this]
  · have : removeAll m ks w = .panic w := by rw [removeAll, M.bind_ok hm, if_pos hf]; rfl
    have : call (.removeAll m ks) w = .panic w := by simp only [call]; rw [M.bind_panic this]
    simp [exec, Op.refs, hl, this]
  · have hla := (List.getElem?_eq_some_iff.1 ha).1
    have : putAll m a w = .panic w := by
      rw [putAll, M.bind_ok (getMap_run ha), if_neg hne, M.bind_ok hm, if_pos hf]; rfl
    have : call (.putAll m a) w = .panic w := by simp only [call]; rw [M.bind_panic this]
    simp [exec, Op.refs, hl, hla, this]

example : (exec Ex.w5 (.freeze 0)).2.maps[0]?.map (·.frozen) = some true ∧ Ex.w5.maps[1]?.map (·.len) = some 2 ∧
    (exec (exec Ex.w5 (.freeze 0)).2 (.put 0 2 none)).1 = .panic := by decide +kernel

end Verif.HMap
