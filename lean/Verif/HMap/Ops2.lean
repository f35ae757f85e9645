import Verif.HMap.Ops
/-! `PutAll`, `Remove`, `RemoveAll` and the operations that make a new map. -/
set_option linter.unusedSimpArgs false
namespace Verif.HMap
open Spec

variable {K V : Type} [KeyOps K]

theorem putAll_run [LawfulKey K] {w : World K V} {m a : MRef} {g ga : HM} {cs as : List (Cell K V)} (h : RepM w m g cs)
    (hg : Good g cs) (hz : g.frozen = false) (ha : RepM w a ga as) (hga : ga.len = as.length) (hne : as ≠ [])
    (hdis : m ≠ a → ∀ x ∈ as, x.p ∉ cs.map (·.p)) :
    ∃ w' g' cs', putAll m a w = .ok () w' ∧ RepM w' m g' cs' ∧ Good g' cs' ∧ Eff w w' m cs cs' ∧
      kv cs' = insertAll (kv cs) (kv as) ∧ g'.frozen = false ∧ Fresh w w' cs' := by
  have hlen : ¬ ga.len = 0 := by rw [hga]; simp [hne]
  have hcond : 4 * (g.len + ga.len) > 3 * g.len := by omega
  obtain ⟨w1, g1, cs1, a1, a2, a3, a4, a5, a6, a7, a8⟩ := resize_self_run h ga.len
  have hd1 : Distinct cs1 := distinct_kv hg.distinct (by rw [a4])
  have hl1 : cs1.length = cs.length := by rw [← kv_length, a4, kv_length]
  have start : ∀ ga' f, w1.maps[a]? = some ga' → f = w1.nodes.length + 1 → ∀ l w2 g2, putAllLoop m f ga'.first g.len w1 = .ok l w2 →
      w2.maps[m]? = some g2 → putAll m a w = .ok () ⟨w2.nodes, w2.maps.set m { g2 with len := l }⟩ := by
    intro ga' f hga' hf l w2 g2 hl h2
    rw [putAll, M.bind_ok (getMap_run ha.map), if_neg hlen, M.bind_ok (getMap_run h.map), hz]
    simp only [Bool.false_eq_true, if_false]
    rw [if_pos hcond, M.bind_ok a1, M.bind_ok (getMap_run hga'), M.bind_ok fuel_run, ← hf, M.bind_ok hl,
      M.bind_ok (getMap_run h2), setMap_run]
  by_cases hma : m = a
  · subst hma
    have hgg : ga = g := by
      have := ha.map; rw [h.map] at this; cases this; rfl
    have hcs : kv as = kv cs := by
      have h1 := entries_run h
      have h2 := entries_run ha
      rw [h1] at h2
      injection h2 with h2
      exact h2.symm
    obtain ⟨w2, b1, b2, b3⟩ := putAllLoop_self (pre := []) (f := w1.nodes.length + 1) (l := g.len) a2 hd1 a7 rfl a2.core.seg (by have := a2.core.bound; omega) (by rw [hg.len, hl1])
    refine ⟨_, { g1 with len := cs1.length }, cs1, start g1 _ a2.map rfl _ _ _ b1 b2.map, b2.setMap _ rfl rfl rfl,
      ⟨rfl, by simp only; omega, hd1⟩, a3.trans (b3.trans Eff.setMap), ?_, by simp only; rw [a5, hz], a8.trans a3.grow (b3.trans Eff.setMap)⟩
    rw [a4, hcs, insertAll_self (distinct_iff.2 hg.distinct)]
  · have hdis' := hdis hma
    have ha1 : RepM w1 a ga as := ha.frame a3 (fun e => hma e.symm) hdis'
    have hdis1 : ∀ x ∈ as, x.p ∉ cs1.map (·.p) := by
      intro x hx hc
      obtain ⟨y, hy, e⟩ := List.mem_map.1 hc
      rcases a3.own y hy with h | h'
      · exact hdis' x hx (by rw [← e]; exact h)
      · have := ha.core.lt x hx; omega
    obtain ⟨w2, g2, cs2, b1, b2, b3, b4, b5, b6, b7⟩ := putAllLoop_other (f := w1.nodes.length + 1) (l := g.len) a2 hd1 a7
      ha1.core.seg hdis1 (by have := ha1.core.bound; omega) (by rw [hg.len, hl1])
    refine ⟨_, { g2 with len := cs2.length }, cs2, start ga _ ha1.map rfl _ _ _ b1 b2.map, b2.setMap _ rfl rfl rfl,
      ⟨rfl, by simp only; omega, b3⟩, a3.trans (b4.trans Eff.setMap), by rw [b5, a4], by simp only; rw [b6, a5, hz], a8.trans a3.grow (b4.trans Eff.setMap)⟩

/-! ### Removal -/

theorem tbl_pos {g : HM} {cs : List (Cell K V)} (hg : Good g cs) (hz : g.frozen = false) : 0 < g.table.length := by
  rcases Nat.eq_zero_or_pos g.table.length with h0 | h0
  · rw [hg.tbl h0] at hz; cases hz
  · exact h0

/-- What the removal of a key does to the cells of a map. -/
inductive Cut (w w' : World K V) (k : K) (cs : List (Cell K V)) : List (Cell K V) → Prop
  | miss : (∀ c ∈ cs, KeyOps.eq k c.k = false) → w' = w → Cut w w' k cs cs
  | hit {A B : List (Cell K V)} {c : Cell K V} : cs = A ++ c :: B → KeyOps.eq k c.k = true → w'.nodes[c.p]? = w.nodes[c.p]? → Cut w w' k cs (A ++ B)

/-- The removal of keys, one after the other. -/
inductive Cuts (m : MRef) : World K V → List K → List (Cell K V) → World K V → List (Cell K V) → Prop
  | nil {w cs} : Cuts m w [] cs w cs
  | cons {w w1 w' g1 k ks cs cs1 cs'} : Cut w w1 k cs cs1 → RepM w1 m g1 cs1 → Good g1 cs1 → Eff w w1 m cs cs1 → Cuts m w1 ks cs1 w' cs' → Cuts m w (k :: ks) cs w' cs'

theorem remove_run [LawfulKey K] {w : World K V} {m : MRef} {g : HM} {cs : List (Cell K V)} (h : RepM w m g cs)
    (hg : Good g cs) (hz : g.frozen = false) (k : K) :
    ∃ w' g' cs', remove m k w = .ok (lookup k (kv cs)) w' ∧ RepM w' m g' cs' ∧ Good g' cs' ∧ Eff w w' m cs cs' ∧
      kv cs' = erase (kv cs) k ∧ g'.frozen = false ∧ Cut w w' k cs cs' ∧ g'.table.length = g.table.length := by
  have hpos := tbl_pos hg hz
  obtain ⟨hd', hhd⟩ := tbl_slot hpos h.core.size (KeyOps.hash k)
  have start : ∀ R, ((findChain k (w.nodes.length + 1) none hd' >>= fun r => (match r with
      | some (pp, p) => do
        let n ← getNode p
        unlink m (slot g.table.length (KeyOps.hash k)) pp p
        pure (some n.value)
      | none => pure none : M (World K V) (Option V))) w = R) → remove m k w = R := by
    intro R hR
    rw [remove, M.bind_ok (getMap_run h.map), hz]
    simp only [Bool.false_eq_true, if_false]
    rw [M.bind_ok (tblGet_run hhd), M.bind_ok fuel_run]
    exact hR
  rcases split_key k hg.distinct with hk | ⟨A, c, B, rfl, hk, hA, hB⟩
  · refine ⟨w, g, cs, start _ ?_, h, hg, Eff.refl _ _ _, by rw [erase_miss (kv_forall hk)], hz, .miss hk rfl, rfl⟩
    rw [M.bind_ok (find_miss h.core hk hhd), lookup_miss (kv_forall hk)]
    rfl
  · obtain ⟨n, hn, hnk, hnv⟩ := h.core.seg.mem_node c (by simp)
    have hh : KeyOps.hash k = KeyOps.hash c.k := LawfulKey.hash _ _ hk
    obtain ⟨w', g', b1, b2, b3, b4, b5, b6, b7⟩ := unlink_run h (hk := slot g.table.length (KeyOps.hash k)) (by rw [hh])
    refine ⟨w', g', A ++ B, start _ ?_, b2, ⟨?_, by rw [b6]; omega, distinct_sub hg.distinct⟩, b3, ?_, by rw [b4, hz], .hit rfl hk b7, b6⟩
    · rw [M.bind_ok (find_hit h.core hk hB hhd)]
      dsimp only
      rw [M.bind_ok (getNode_run hn), M.bind_ok b1, kv_append, kv_cons, lookup_hit (kv_forall hA) hk, hnv]
      rfl
    · rw [b5, hg.len]; simp
    · rw [kv_append, kv_append, kv_cons, erase_hit (kv_forall hA) hk (kv_forall hB)]

theorem removeKey_run [LawfulKey K] {w : World K V} {m : MRef} {g : HM} {cs : List (Cell K V)} (h : RepM w m g cs)
    (hg : Good g cs) (hz : g.frozen = false) (k : K) :
    ∃ w' g' cs', removeKey m k w = .ok () w' ∧ RepM w' m g' cs' ∧ Good g' cs' ∧ Eff w w' m cs cs' ∧
      kv cs' = erase (kv cs) k ∧ g'.frozen = false ∧ Cut w w' k cs cs' := by
  have hpos := tbl_pos hg hz
  obtain ⟨hd', hhd⟩ := tbl_slot hpos h.core.size (KeyOps.hash k)
  have start : ∀ R, ((findChain k (w.nodes.length + 1) none hd' >>= fun r => (match r with
      | some (pp, p) => unlink m (slot g.table.length (KeyOps.hash k)) pp p
      | none => pure () : M (World K V) Unit)) w = R) → removeKey m k w = R := by
    intro R hR
    rw [removeKey, M.bind_ok (getMap_run h.map)]
    rw [M.bind_ok (tblGet_run hhd), M.bind_ok fuel_run]
    exact hR
  rcases split_key k hg.distinct with hk | ⟨A, c, B, rfl, hk, hA, hB⟩
  · refine ⟨w, g, cs, start _ ?_, h, hg, Eff.refl _ _ _, by rw [erase_miss (kv_forall hk)], hz, .miss hk rfl⟩
    rw [M.bind_ok (find_miss h.core hk hhd)]
    rfl
  · have hh : KeyOps.hash k = KeyOps.hash c.k := LawfulKey.hash _ _ hk
    obtain ⟨w', g', b1, b2, b3, b4, b5, b6, b7⟩ := unlink_run h (hk := slot g.table.length (KeyOps.hash k)) (by rw [hh])
    refine ⟨w', g', A ++ B, start _ ?_, b2, ⟨?_, by rw [b6]; omega, distinct_sub hg.distinct⟩, b3, ?_, by rw [b4, hz], .hit rfl hk b7⟩
    · rw [M.bind_ok (find_hit h.core hk hB hhd)]
      dsimp only
      rw [b1]
    · rw [b5, hg.len]; simp
    · rw [kv_append, kv_append, kv_cons, erase_hit (kv_forall hA) hk (kv_forall hB)]

theorem removeKeys_run [LawfulKey K] {w : World K V} {m : MRef} {g : HM} {cs : List (Cell K V)} (h : RepM w m g cs)
    (hg : Good g cs) (hz : g.frozen = false) (ks : List K) :
    ∃ w' g' cs', removeKeys m ks w = .ok () w' ∧ RepM w' m g' cs' ∧ Good g' cs' ∧ Eff w w' m cs cs' ∧
      kv cs' = eraseAll (kv cs) ks ∧ g'.frozen = false ∧ Cuts m w ks cs w' cs' := by
  induction ks generalizing w g cs with
  | nil => exact ⟨w, g, cs, rfl, h, hg, Eff.refl _ _ _, rfl, hz, .nil⟩
  | cons k ks ih =>
    obtain ⟨w1, g1, cs1, a1, a2, a3, a4, a5, a6, a7⟩ := removeKey_run h hg hz k
    obtain ⟨w2, g2, cs2, b1, b2, b3, b4, b5, b6, b7⟩ := ih a2 a3 a6
    refine ⟨w2, g2, cs2, ?_, b2, b3, a4.trans b4, by rw [b5, a5]; rfl, b6, .cons a7 a2 a3 a4 b7⟩
    rw [removeKeys, M.bind_ok a1, b1]

theorem eraseAll_nil (ks : List K) : eraseAll ([] : List (K × V)) ks = [] := by
  induction ks with
  | nil => rfl
  | cons k ks ih => exact ih

theorem cuts_nil {w : World K V} {m : MRef} {g : HM} (h : RepM w m g ([] : List (Cell K V))) (hg : Good g ([] : List (Cell K V))) (ks : List K) : Cuts m w ks [] w [] := by
  induction ks with
  | nil => exact .nil
  | cons k ks ih => exact .cons (.miss (by simp) rfl) h hg (Eff.refl _ _ _) ih

theorem removeAll_run [LawfulKey K] {w : World K V} {m : MRef} {g : HM} {cs : List (Cell K V)} (h : RepM w m g cs)
    (hg : Good g cs) (hz : g.frozen = false) (ks : List K) :
    ∃ w' g' cs', removeAll m ks w = .ok () w' ∧ RepM w' m g' cs' ∧ Good g' cs' ∧ Eff w w' m cs cs' ∧
      kv cs' = eraseAll (kv cs) ks ∧ g'.frozen = false ∧ Cuts m w ks cs w' cs' := by
  by_cases hc : g.len = 0 ∨ ks.length = 0
  · refine ⟨w, g, cs, ?_, h, hg, Eff.refl _ _ _, ?_, hz, ?_⟩
    · rw [removeAll, M.bind_ok (getMap_run h.map), hz]
      simp only [Bool.false_eq_true, if_false]
      rw [if_pos hc]
      rfl
    · rcases hc with hc | hc
      · rw [hg.len] at hc
        rw [List.length_eq_zero_iff.1 hc]
        exact (eraseAll_nil ks).symm
      · rw [List.length_eq_zero_iff.1 hc]; rfl
    · rcases hc with hc | hc
      · rw [hg.len] at hc
        obtain rfl := List.length_eq_zero_iff.1 hc
        exact cuts_nil h hg ks
      · rw [List.length_eq_zero_iff.1 hc]; exact .nil
  · obtain ⟨w', g', cs', a1, a2⟩ := removeKeys_run h hg hz ks
    refine ⟨w', g', cs', ?_, a2⟩
    rw [removeAll, M.bind_ok (getMap_run h.map), hz]
    simp only [Bool.false_eq_true, if_false]
    rw [if_neg hc, a1]

/-! ### New maps -/

/-- What an operation that makes one new map, with cells `cs'`, may do to the heap. -/
structure New (w w' : World K V) (cs' : List (Cell K V)) : Prop where
  nmaps : w'.maps.length = w.maps.length + 1
  maps : ∀ j, j < w.maps.length → w'.maps[j]? = w.maps[j]?
  grow : w.nodes.length ≤ w'.nodes.length
  own : ∀ c ∈ cs', w.nodes.length ≤ c.p
  frame : ∀ p, p < w.nodes.length → w'.nodes[p]? = w.nodes[p]?

omit [KeyOps K] in
theorem New.trans {w w1 w2 : World K V} {cs1 cs2 : List (Cell K V)} (h1 : New w w1 cs1)
    (h2 : Eff w1 w2 w.maps.length cs1 cs2) : New w w2 cs2 where
  nmaps := by rw [h2.nmaps, h1.nmaps]
  maps j hj := by rw [h2.maps j (by omega), h1.maps j hj]
  grow := Nat.le_trans h1.grow h2.grow
  own c hc := by
    rcases h2.own c hc with h | h
    · obtain ⟨d, hd, e⟩ := List.mem_map.1 h
      rw [← e]; exact h1.own d hd
    · have := h1.grow; omega
  frame p hp := by
    rw [h2.frame p (by have := h1.grow; omega), h1.frame p hp]
    intro hc
    obtain ⟨d, hd, e⟩ := List.mem_map.1 hc
    have := h1.own d hd
    omega

theorem RepM.new {w w' : World K V} {m : MRef} {g : HM} {cs cs' : List (Cell K V)} (h : RepM w m g cs)
    (hn : New w w' cs') : RepM w' m g cs where
  map := by rw [hn.maps m h.lt, h.map]
  core := h.core.frame fun c hc => hn.frame _ (h.core.lt c hc)

omit [KeyOps K] in
theorem New.alloc {w : World K V} {g : HM} : New w ⟨w.nodes, w.maps ++ [g]⟩ [] where
  nmaps := by simp
  maps j hj := List.getElem?_append_left hj
  grow := Nat.le_refl _
  own := by simp
  frame _ _ := rfl

theorem core_replicate {nodes : List (Node K V)} {n : Nat} (h : n ≤ 2 ^ 30) :
    Core nodes (List.replicate n none) none none ([] : List (Cell K V)) := by
  refine ⟨⟨rfl, rfl⟩, ?_, by simp, by simpa using h, fun _ => rfl⟩
  intro i p hp
  rw [List.getElem?_eq_some_iff] at hp
  obtain ⟨_, hp⟩ := hp
  rw [List.getElem_replicate] at hp
  subst hp
  rfl

/-- An allocated map without entries. -/
theorem RepM.alloc {w : World K V} {n : Nat} (h : n ≤ 2 ^ 30) {g : HM} (ht : g.table = List.replicate n none)
    (hf : g.first = none) (hl : g.last = none) :
    RepM ⟨w.nodes, w.maps ++ [g]⟩ w.maps.length g ([] : List (Cell K V)) where
  map := by simp
  core := by rw [ht, hf, hl]; exact core_replicate h

/-- `resize` of `m` into a map just allocated. -/
theorem resize_new_run {w : World K V} {m : MRef} {g g0 : HM} {cs : List (Cell K V)} (h : RepM w m g cs)
    (h0 : g0.first = none) (inc : Nat) :
    ∃ w' g' cs', resize m w.maps.length inc ⟨w.nodes, w.maps ++ [g0]⟩ = .ok () w' ∧ RepM w' w.maps.length g' cs' ∧
      New w w' cs' ∧ kv cs' = kv cs ∧ g'.frozen = g0.frozen ∧ g'.len = g0.len ∧ 0 < g'.table.length := by
  have hm1 : (w.maps ++ [g0])[m]? = some g := by rw [List.getElem?_append_left h.lt, h.map]
  have hc1 : (w.maps ++ [g0])[w.maps.length]? = some g0 := by simp
  obtain ⟨nodes', tbl', first', last', cs', r1, r2, r3, r4, r5, r6, r7, r8⟩ :=
    resize_run (w := ⟨w.nodes, w.maps ++ [g0]⟩) (inc := inc) hm1 hc1 h.core (fun _ => h0)
  refine ⟨_, _, cs', r1, ⟨List.getElem?_set_self (by simp), r2⟩, ?_, r3, rfl, rfl, r5⟩
  refine ⟨by simp, ?_, r6, r4, r7⟩
  intro j hj
  rw [List.getElem?_set_ne (by omega), List.getElem?_append_left hj]

theorem mapNodes_run {w : World K V} {m : MRef} {g : HM} {fn : K → V → V} {cs pre rest : List (Cell K V)} {f cur pv}
    (h : RepM w m g cs) (hcs : cs = pre ++ rest) (hs : Seg w.nodes pv cur rest g.last none) (hf : rest.length ≤ f) :
    ∃ w' cs', mapNodes fn f cur w = .ok () w' ∧ RepM w' m g cs' ∧ Eff w w' m cs cs' ∧
      kv cs' = kv pre ++ (kv rest).map (fun e => (e.1, fn e.1 e.2)) := by
  induction rest generalizing w cs pre f cur pv with
  | nil =>
    simp only [Seg] at hs
    rw [hs.2]
    refine ⟨w, cs, ?_, h, Eff.refl _ _ _, by rw [hcs]; simp⟩
    cases f <;> simp only [mapNodes, M.pure_run]
  | cons a rest ih =>
    obtain ⟨f, rfl⟩ : ∃ f', f = f' + 1 := ⟨f - 1, by simp at hf; omega⟩
    obtain ⟨rfl, n, h1, h2, h3, h4, h5⟩ := hs
    subst hcs
    obtain ⟨r1, r2⟩ := setValue_run (fn n.key n.value) h h1
    have hal := (List.getElem?_eq_some_iff.1 h1).1
    have hnd := h.core.nodup
    rw [List.map_append, List.map_cons, List.nodup_append, List.nodup_cons] at hnd
    obtain ⟨w2, cs2, c1, c2, c3, c4⟩ := ih (pre := pre ++ [{ a with v := fn n.key n.value }]) (f := f) (cur := n.next)
      (pv := some a.p) r1 (by simp) (h5.frame (SameSeg.of_eq fun x hx => by
        simp only
        rw [List.getElem?_set_ne]
        intro e
        exact hnd.2.1.1 (by rw [e]; exact List.mem_map_of_mem hx))) (by simp at hf; omega)
    refine ⟨w2, cs2, ?_, c2, r2.trans c3, ?_⟩
    · rw [mapNodes, M.bind_ok (getNode_run h1), M.bind_ok setNode_run,
        M.bind_ok (getNode_run (n := { n with value := fn n.key n.value }) (List.getElem?_set_self hal)), c1]
    · rw [c4]; simp [h2, h3]

/-- The common part of `Copy` and `Map`. -/
theorem copyMap_run {w : World K V} {m : MRef} {g g0 : HM} {cs : List (Cell K V)} (h : RepM w m g cs) (hg : Good g cs)
    (h0 : g0.first = none) (hl0 : g0.len = g.len) (fn : K → V → V) :
    ∃ w' g' cs', (do
        resize m w.maps.length 0
        let cm ← getMap w.maps.length
        let f ← fuel
        mapNodes fn f cm.first
        pure w.maps.length : M (World K V) MRef) ⟨w.nodes, w.maps ++ [g0]⟩ = .ok w.maps.length w' ∧
      RepM w' w.maps.length g' cs' ∧ Good g' cs' ∧ New w w' cs' ∧ kv cs' = (kv cs).map (fun e => (e.1, fn e.1 e.2)) ∧
      g'.frozen = g0.frozen := by
  obtain ⟨w1, g1, cs1, a1, a2, a3, a4, a5, a6, a7⟩ := resize_new_run h h0 0
  obtain ⟨w2, cs2, b1, b2, b3, b4⟩ := mapNodes_run (fn := fn) (pre := []) (f := w1.nodes.length + 1) a2 rfl a2.core.seg
    (by have := a2.core.bound; omega)
  have hkv : kv cs2 = (kv cs).map (fun e => (e.1, fn e.1 e.2)) := by rw [b4, a4]; simp
  refine ⟨w2, g1, cs2, ?_, b2, ⟨?_, by omega, ?_⟩, a3.trans b3, hkv, a5⟩
  · rw [M.bind_ok a1, M.bind_ok (getMap_run a2.map), M.bind_ok fuel_run, M.bind_ok b1]
    rfl
  · rw [a6, hl0, hg.len, ← kv_length, ← kv_length, hkv]; simp
  · refine distinct_kv hg.distinct ?_
    rw [hkv, List.map_map]
    rfl

theorem toMapLoop_run {w : World K V} {kvs : List (K × V)} {tl : Nat} {tbl first last} {cs : List (Cell K V)} {N : Nat}
    (h : Core w.nodes tbl first last cs) (htl : tbl.length = tl) (hpos : 0 < tl) (hN : ∀ c ∈ cs, N ≤ c.p)
    (hNl : N ≤ w.nodes.length) :
    ∃ nodes' tbl' first' last' cs', toMapLoop tl kvs tbl first last w = .ok (tbl', first', last') ⟨nodes', w.maps⟩ ∧
      Core nodes' tbl' first' last' cs' ∧ kv cs' = kv cs ++ kvs ∧ (∀ c ∈ cs', N ≤ c.p) ∧ tbl'.length = tl ∧
      w.nodes.length ≤ nodes'.length ∧ (∀ p, p < N → nodes'[p]? = w.nodes[p]?) := by
  induction kvs generalizing w tbl first last cs with
  | nil => exact ⟨w.nodes, tbl, first, last, cs, rfl, h, by simp, hN, htl, Nat.le_refl _, fun _ _ => rfl⟩
  | cons e r ih =>
    obtain ⟨k, v⟩ := e
    obtain ⟨hn, hhn⟩ := tbl_slot (by omega) h.size (KeyOps.hash k)
    obtain ⟨s1, s2, s3⟩ := h.snoc (by omega) k v hhn
    have hfl := h.first_none
    have hold : ∀ p, p < N → (snocNodes w.nodes last hn k v)[p]? = w.nodes[p]? := by
      intro p hp
      refine s3 p (by omega) ?_
      intro hc
      obtain ⟨d, hd, rfl⟩ := List.mem_map.1 hc
      have := hN d hd
      omega
    obtain ⟨nodes', tbl', first', last', cs', r1, r2, r3, r4, r5, r6, r7⟩ := ih
      (w := ⟨snocNodes w.nodes last hn k v, w.maps⟩) s1 (by simpa using htl)
      (by
        intro d hd
        rcases List.mem_append.1 hd with hd | hd
        · exact hN d hd
        · simp at hd; subst hd; exact hNl)
      (by simp only; omega)
    refine ⟨nodes', tbl', first', last', cs', ?_, r2, by rw [r3]; simp, r4, r5, by simp only at r6; omega,
      fun p hp => by rw [r7 p hp]; exact hold p hp⟩
    rw [← r1, toMapLoop, ← htl, M.bind_ok (tblGet_run hhn), M.bind_ok allocNode_run]
    rcases hf : first with _ | f0
    · have hl : last = none := hfl.1 hf
      subst hl
      simp only [snocNodes, if_true]
    · rcases hl : last with _ | l
      · rw [hfl.2 hl] at hf; cases hf
      · rw [hl] at h
        obtain ⟨ln, hln⟩ := h.last_lt
        have hll := (List.getElem?_eq_some_iff.1 hln).1
        dsimp only
        rw [M.bind_ok (getNode_run (n := ln) (by simp only; rw [List.getElem?_append_left hll, hln])),
          M.bind_ok setNode_run]
        simp only [snocNodes, hln]
        rw [List.set_append_left _ _ hll]
        simp

theorem toMap_run {w : World K V} {kvs : List (K × V)} (hd : DistinctKeys kvs) (frozen : Bool) :
    ∃ w' g' cs', toMap kvs frozen w = .ok w.maps.length w' ∧ RepM w' w.maps.length g' cs' ∧ Good g' cs' ∧
      New w w' cs' ∧ kv cs' = kvs ∧ g'.frozen = frozen := by
  obtain ⟨nodes', tbl', first', last', cs', r1, r2, r3, r4, r5, r6, r7⟩ := toMapLoop_run (w := w) (kvs := kvs)
    (tl := tableSizeFor kvs.length) (tbl := List.replicate (tableSizeFor kvs.length) none) (N := w.nodes.length)
    (core_replicate (tableSizeFor_le _)) (by simp) (tableSizeFor_pos _) (by simp) (Nat.le_refl _)
  have hkv : kv cs' = kvs := by simpa using r3
  refine ⟨⟨nodes', w.maps ++ [⟨tbl', kvs.length, first', last', frozen⟩]⟩, ⟨tbl', kvs.length, first', last', frozen⟩, cs', ?_, ⟨by simp, r2⟩, ⟨?_, ?_, ?_⟩, ?_, hkv, rfl⟩
  · rw [toMap, List.length_replicate, M.bind_ok r1]
    rfl
  · simp only; rw [← hkv, kv_length]
  · simp only
    have := tableSizeFor_pos kvs.length
    omega
  · rw [← distinct_iff, hkv]; exact hd
  · exact ⟨by simp, fun j hj => List.getElem?_append_left hj, r6, r4, r7⟩

end Verif.HMap
