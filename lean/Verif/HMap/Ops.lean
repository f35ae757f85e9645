import Verif.HMap.Write
import Verif.HMap.Spec
/-! Every operation on a well-formed map, in terms of the list of its entries. -/
set_option linter.unusedSimpArgs false
namespace Verif.HMap
open Spec

variable {K V : Type} [KeyOps K]

/-! ### The specification functions on cells -/

theorem lookup_miss {k : K} {es : List (K × V)} (h : ∀ e ∈ es, KeyOps.eq k e.1 = false) : lookup k es = none := by
  unfold lookup
  rw [List.find?_eq_none.2]
  · rfl
  · intro e he; rw [h e he]; simp

theorem lookup_hit {k : K} {A B : List (K × V)} {e : K × V} (hA : ∀ e ∈ A, KeyOps.eq k e.1 = false)
    (he : KeyOps.eq k e.1 = true) : lookup k (A ++ e :: B) = some e.2 := by
  unfold lookup
  rw [List.find?_append, List.find?_eq_none.2]
  · simp [List.find?_cons, he]
  · intro e he; rw [hA e he]; simp

theorem insert_miss {k : K} {v : V} {es : List (K × V)} (h : ∀ e ∈ es, KeyOps.eq k e.1 = false) :
    insert es k v = es ++ [(KeyOps.freeze k, v)] := by
  simp [Spec.insert, lookup_miss h]

theorem insert_hit {k : K} {v : V} {A B : List (K × V)} {e : K × V} (hA : ∀ e ∈ A, KeyOps.eq k e.1 = false)
    (he : KeyOps.eq k e.1 = true) (hB : ∀ e ∈ B, KeyOps.eq k e.1 = false) :
    insert (A ++ e :: B) k v = A ++ (e.1, v) :: B := by
  have hid : ∀ L : List (K × V), (∀ e ∈ L, KeyOps.eq k e.1 = false) →
      L.map (fun e => if KeyOps.eq k e.1 then (e.1, v) else e) = L := by
    intro L hL
    rw [List.map_congr_left (g := id)]
    · simp
    · intro x hx; rw [hL x hx]; simp
  simp only [Spec.insert, lookup_hit hA he, Option.isSome_some, if_true, List.map_append, List.map_cons, he, hid A hA,
    hid B hB]

theorem erase_miss {k : K} {es : List (K × V)} (h : ∀ e ∈ es, KeyOps.eq k e.1 = false) : erase es k = es := by
  unfold erase
  rw [List.filter_eq_self]
  intro e he; rw [h e he]; rfl

theorem erase_hit {k : K} {A B : List (K × V)} {e : K × V} (hA : ∀ e ∈ A, KeyOps.eq k e.1 = false)
    (he : KeyOps.eq k e.1 = true) (hB : ∀ e ∈ B, KeyOps.eq k e.1 = false) : erase (A ++ e :: B) k = A ++ B := by
  have h1 := erase_miss hA
  have h2 := erase_miss hB
  unfold erase at *
  rw [List.filter_append, List.filter_cons_of_neg (by simp [he]), h1, h2]

theorem kv_forall {k : K} {cs : List (Cell K V)} (h : ∀ c ∈ cs, KeyOps.eq k c.k = false) :
    ∀ e ∈ kv cs, KeyOps.eq k e.1 = false := by
  intro e he
  obtain ⟨c, hc, rfl⟩ := List.mem_map.1 he
  exact h c hc

theorem distinct_kv {cs cs' : List (Cell K V)} (h : Distinct cs) (e : (kv cs').map (·.1) = (kv cs).map (·.1)) :
    Distinct cs' := by
  have h1 : ∀ cs : List (Cell K V), Distinct cs ↔ ((kv cs).map (·.1)).Pairwise fun a b => KeyOps.eq a b = false := by
    intro cs
    unfold Distinct kv
    rw [List.map_map, List.pairwise_map]
    rfl
  rw [h1] at h ⊢
  rw [e]; exact h

theorem distinct_sub {A B : List (Cell K V)} {c : Cell K V} (h : Distinct (A ++ c :: B)) : Distinct (A ++ B) :=
  List.Pairwise.sublist (List.Sublist.append (List.Sublist.refl _) (List.sublist_cons_self _ _)) h

/-! ### Well-formed maps -/

/-- The bookkeeping that goes with the linked structure: the entry count, distinct keys, and that only a frozen map can
lack a table. -/
structure Good (g : HM) (cs : List (Cell K V)) : Prop where
  len : g.len = cs.length
  tbl : g.table.length = 0 → g.frozen = true
  distinct : Distinct cs

/-! ### Lookup -/

theorem mget_run [LawfulKey K] {w : World K V} {m : MRef} {g : HM} {cs : List (Cell K V)} (h : RepM w m g cs)
    (hd : Distinct cs) (k : K) : mget m k w = .ok (lookup k (kv cs)) w := by
  unfold mget
  rw [M.bind_ok (getMap_run h.map)]
  by_cases h0 : g.table.length = 0
  · rw [if_pos h0, h.core.empty h0]
    rfl
  · rw [if_neg h0]
    obtain ⟨hd', hhd⟩ := tbl_slot (by omega) h.core.size (KeyOps.hash k)
    rw [M.bind_ok (tblGet_run hhd), M.bind_ok fuel_run]
    rcases split_key k hd with hk | ⟨A, c, B, rfl, hk, hA, hB⟩
    · rw [M.bind_ok (find_miss h.core hk hhd), lookup_miss (kv_forall hk)]
      rfl
    · rw [M.bind_ok (find_hit h.core hk hB hhd)]
      obtain ⟨n, hn, _, hv⟩ := h.core.seg.mem_node c (by simp)
      dsimp only
      rw [M.bind_ok (getNode_run hn), kv_append, kv_cons, lookup_hit (kv_forall hA) hk, hv]
      rfl

omit [KeyOps K] in
theorem entries_seg {w : World K V} {cs : List (Cell K V)} {first last} (h : Seg w.nodes none first cs last none)
    (hb : cs.length ≤ w.nodes.length) : walk (w.nodes.length + 1) first w = .ok (kv cs) w :=
  walk_run h (by omega)

theorem entries_run {w : World K V} {m : MRef} {g : HM} {cs : List (Cell K V)} (h : RepM w m g cs) :
    entries m w = .ok (kv cs) w := by
  unfold entries
  rw [M.bind_ok (getMap_run h.map), M.bind_ok fuel_run, entries_seg h.core.seg h.core.bound]

/-! ### Changes of the nodes -/

/-- Replacing the value of an existing entry. -/
theorem setValue_run {w : World K V} {m : MRef} {g : HM} {A B : List (Cell K V)} {c : Cell K V} {n : Node K V} (v : V)
    (h : RepM w m g (A ++ c :: B)) (hn : w.nodes[c.p]? = some n) :
    RepM ⟨w.nodes.set c.p { n with value := v }, w.maps⟩ m g (A ++ { c with v := v } :: B) ∧
    Eff w ⟨w.nodes.set c.p { n with value := v }, w.maps⟩ m (A ++ c :: B) (A ++ { c with v := v } :: B) := by
  refine ⟨⟨h.map, ?_⟩, ⟨rfl, fun _ _ => rfl, by simp, ?_, ?_⟩⟩
  · have := h.core.setV (v := v) hn
    rw [setV_mid h.core.nodup] at this
    exact this
  · intro d hd
    left
    have : (A ++ { c with v := v } :: B).map (·.p) = (A ++ c :: B).map (·.p) := by simp
    rw [← this]
    exact List.mem_map_of_mem hd
  · intro p _ hp
    simp only
    rw [List.getElem?_set_ne]
    intro e; subst e; apply hp; simp

theorem distinct_setVal {A B : List (Cell K V)} {c : Cell K V} {v : V} (h : Distinct (A ++ c :: B)) :
    Distinct (A ++ { c with v := v } :: B) := distinct_kv h (by simp)

theorem appendNode_run [LawfulKey K] {w : World K V} {m : MRef} {g : HM} {cs : List (Cell K V)} {k : K} {v : V}
    {hk : Nat} (h : RepM w m g cs) (hpos : 0 < g.table.length) (hhk : hk = slot g.table.length (KeyOps.hash k)) :
    ∃ w' g', appendNode m hk k v w = .ok () w' ∧ RepM w' m g' (cs ++ [⟨w.nodes.length, KeyOps.freeze k, v⟩]) ∧
      Eff w w' m cs (cs ++ [⟨w.nodes.length, KeyOps.freeze k, v⟩]) ∧ g'.frozen = g.frozen ∧ g'.len = g.len ∧
      g'.table.length = g.table.length := by
  obtain ⟨hm, hcore⟩ := h
  have hml := (List.getElem?_eq_some_iff.1 hm).1
  have hhash : KeyOps.hash (KeyOps.freeze k) = KeyOps.hash k := LawfulKey.hash _ _ (LawfulKey.frz k)
  rw [← hhash] at hhk
  obtain ⟨hn, hhn⟩ := tbl_slot hpos hcore.size (KeyOps.hash (KeyOps.freeze k))
  obtain ⟨s1, s2, s3⟩ := hcore.snoc hpos (KeyOps.freeze k) v hhn
  have heff : ∀ g', Eff w ⟨snocNodes w.nodes g.last hn (KeyOps.freeze k) v, w.maps.set m g'⟩ m cs
      (cs ++ [⟨w.nodes.length, KeyOps.freeze k, v⟩]) := by
    intro g'
    refine ⟨by simp, fun j hj => List.getElem?_set_ne (fun e => hj e.symm), by simp only [s2]; omega, ?_, s3⟩
    intro c hc
    rcases List.mem_append.1 hc with h | h
    · exact .inl (List.mem_map_of_mem h)
    · simp at h; subst h; exact .inr (Nat.le_refl _)
  rw [← hhk] at hhn s1
  have hfl := hcore.first_none
  rcases hf : g.first with _ | f0
  · have hl : g.last = none := hfl.1 hf
    refine ⟨⟨snocNodes w.nodes g.last hn (KeyOps.freeze k) v, w.maps.set m { g with first := some w.nodes.length, last := some w.nodes.length, table := g.table.set hk (some w.nodes.length) }⟩,
      { g with first := some w.nodes.length, last := some w.nodes.length, table := g.table.set hk (some w.nodes.length) },
      ?_, ⟨?_, ?_⟩, heff _, rfl, rfl, by simp⟩
    rotate_left
    · exact List.getElem?_set_self hml
    · simpa [hf] using s1
    · rw [appendNode, M.bind_ok (getMap_run hm), M.bind_ok (tblGet_run hhn), M.bind_ok allocNode_run]
      simp only [hf, hl, setMap_run, snocNodes]
  · rcases hl : g.last with _ | l
    · rw [hfl.2 hl] at hf; cases hf
    · rw [hl] at hcore
      obtain ⟨ln, hln⟩ := hcore.last_lt
      have hll := (List.getElem?_eq_some_iff.1 hln).1
      refine ⟨⟨snocNodes w.nodes g.last hn (KeyOps.freeze k) v, w.maps.set m { g with last := some w.nodes.length, table := g.table.set hk (some w.nodes.length) }⟩,
        { g with last := some w.nodes.length, table := g.table.set hk (some w.nodes.length) },
        ?_, ⟨?_, ?_⟩, heff _, rfl, rfl, by simp⟩
      rotate_left
      · exact List.getElem?_set_self hml
      · simpa [hf, hl] using s1
      · rw [appendNode, M.bind_ok (getMap_run hm), M.bind_ok (tblGet_run hhn), M.bind_ok allocNode_run]
        simp only [hf, hl]
        rw [M.bind_ok (getNode_run (n := ln) (by simp only; rw [List.getElem?_append_left hll, hln])),
          M.bind_ok setNode_run, setMap_run]
        simp only [snocNodes, hln]
        rw [List.set_append_left _ _ hll]

theorem distinct_snoc [LawfulKey K] {cs : List (Cell K V)} {k : K} {p : Ptr} {v : V} (h : Distinct cs)
    (hk : ∀ c ∈ cs, KeyOps.eq k c.k = false) : Distinct (cs ++ [⟨p, KeyOps.freeze k, v⟩]) := by
  unfold Distinct at *
  rw [List.pairwise_append]
  refine ⟨h, by simp, ?_⟩
  intro a ha b hb
  simp at hb; subst hb
  simp only
  rw [LawfulKey.comm, LawfulKey.congr (LawfulKey.frz k)]
  exact hk a ha

omit [KeyOps K] in
/-- Changing fields of a map that are not part of the linked structure. -/
theorem Eff.setMap {w : World K V} {m : MRef} {g : HM} {cs : List (Cell K V)} :
    Eff w ⟨w.nodes, w.maps.set m g⟩ m cs cs where
  nmaps := by simp
  maps _ hj := List.getElem?_set_ne (fun e => hj e.symm)
  grow := Nat.le_refl _
  own _ hc := .inl (List.mem_map_of_mem hc)
  frame _ _ _ := rfl

theorem RepM.setMap {w : World K V} {m : MRef} {g : HM} {cs : List (Cell K V)} (h : RepM w m g cs) (g' : HM)
    (ht : g'.table = g.table) (hf : g'.first = g.first) (hl : g'.last = g.last) :
    RepM ⟨w.nodes, w.maps.set m g'⟩ m g' cs where
  map := List.getElem?_set_self h.lt
  core := by rw [ht, hf, hl]; exact h.core

/-- The cells `cs'` are new ones, and the old ones are as they were. -/
def Fresh (w w' : World K V) (cs' : List (Cell K V)) : Prop :=
  (∀ p, p < w.nodes.length → w'.nodes[p]? = w.nodes[p]?) ∧ ∀ c ∈ cs', w.nodes.length ≤ c.p

omit [KeyOps K] in
theorem Fresh.trans {w w1 w2 : World K V} {m : MRef} {cs1 cs2 : List (Cell K V)} (h : Fresh w w1 cs1) (hl : w.nodes.length ≤ w1.nodes.length)
    (he : Eff w1 w2 m cs1 cs2) : Fresh w w2 cs2 := by
  refine ⟨fun p hp => ?_, fun c hc => ?_⟩
  · rw [he.frame p (by omega) (fun hc => ?_), h.1 p hp]
    obtain ⟨d, hd, e⟩ := List.mem_map.1 hc
    have := h.2 d hd
    omega
  · rcases he.own c hc with h1 | h1
    · obtain ⟨d, hd, e⟩ := List.mem_map.1 h1
      have := h.2 d hd
      omega
    · omega

/-- What `Put` does to the cells of a map: the value of one of them is replaced, or one is added, or all are made anew. -/
inductive PutCells (w w' : World K V) (g g' : HM) (k : K) (v : V) (cs : List (Cell K V)) : List (Cell K V) → Prop
  | hit {A B : List (Cell K V)} {c : Cell K V} : cs = A ++ c :: B → KeyOps.eq k c.k = true → g'.table.length = g.table.length →
      PutCells w w' g g' k v cs (A ++ { c with v := v } :: B)
  | room : (∀ c ∈ cs, KeyOps.eq k c.k = false) → 4 * (g.len + 1) ≤ 3 * g.table.length → g'.table.length = g.table.length →
      PutCells w w' g g' k v cs (cs ++ [⟨w.nodes.length, KeyOps.freeze k, v⟩])
  | grown {cs' : List (Cell K V)} : (∀ c ∈ cs, KeyOps.eq k c.k = false) → 3 * g.table.length < 4 * (g.len + 1) → Fresh w w' cs' → PutCells w w' g g' k v cs cs'

/-- `resize` of a map in place. -/
theorem resize_self_run {w : World K V} {m : MRef} {g : HM} {cs : List (Cell K V)} (h : RepM w m g cs) (inc : Nat) :
    ∃ w' g' cs', resize m m inc w = .ok () w' ∧ RepM w' m g' cs' ∧ Eff w w' m cs cs' ∧ kv cs' = kv cs ∧
      g'.frozen = g.frozen ∧ g'.len = g.len ∧ 0 < g'.table.length ∧ Fresh w w' cs' := by
  obtain ⟨nodes', tbl', first', last', cs', r1, r2, r3, r4, r5, r6, r7, r8⟩ :=
    resize_run (inc := inc) h.map h.map h.core (fun e => h.core.cs_nil.1 e)
  refine ⟨_, _, cs', r1, ⟨List.getElem?_set_self h.lt, r2⟩, ?_, r3, rfl, rfl, r5, fun p hp => r7 p hp, r4⟩
  exact ⟨by simp, fun j hj => List.getElem?_set_ne (fun e => hj e.symm), r6, fun c hc => .inr (r4 c hc),
    fun p hp _ => r7 p hp⟩

/-! ### The mutators -/

theorem put_run [LawfulKey K] {w : World K V} {m : MRef} {g : HM} {cs : List (Cell K V)} (h : RepM w m g cs)
    (hg : Good g cs) (hz : g.frozen = false) (k : K) (v : V) :
    ∃ w' g' cs', put m k v w = .ok (lookup k (kv cs)) w' ∧ RepM w' m g' cs' ∧ Good g' cs' ∧ Eff w w' m cs cs' ∧
      kv cs' = insert (kv cs) k v ∧ g'.frozen = false ∧ 0 < g'.table.length ∧ PutCells w w' g g' k v cs cs' := by
  have hpos : 0 < g.table.length := by
    rcases Nat.eq_zero_or_pos g.table.length with h0 | h0
    · rw [hg.tbl h0] at hz; cases hz
    · exact h0
  obtain ⟨hd', hhd⟩ := tbl_slot hpos h.core.size (KeyOps.hash k)
  have hne : ¬ g.table.length = 0 := by omega
  have start : ∀ R, ((findChain k (w.nodes.length + 1) none hd' >>= fun r => (match r with
    | some (_, p) => do
      let n ← getNode p
      setNode p { n with value := v }
      pure (some n.value)
    | none => do
      if 4 * (g.len + 1) > 3 * g.table.length then resize m m 1 else pure ()
      let g' ← getMap m
      appendNode m (slot g'.table.length (KeyOps.hash k)) k v
      let g'' ← getMap m
      setMap m { g'' with len := g''.len + 1 }
      pure none : M (World K V) (Option V))) w = R) → put m k v w = R := by
    intro R hR
    rw [put, M.bind_ok (getMap_run h.map), hz]
    simp only [if_neg hne, Bool.false_eq_true, if_false]
    rw [M.bind_ok setMap_run, set_same h.map, M.bind_ok (tblGet_run hhd), M.bind_ok fuel_run]
    exact hR
  rcases split_key k hg.distinct with hk | ⟨A, c, B, rfl, hk, hA, hB⟩
  · -- a new key
    have grown : ∃ w1 g1 cs1, (if 4 * (g.len + 1) > 3 * g.table.length then resize m m 1 else pure () : M (World K V) Unit) w = .ok () w1 ∧
        RepM w1 m g1 cs1 ∧ Eff w w1 m cs cs1 ∧ kv cs1 = kv cs ∧ g1.frozen = g.frozen ∧ g1.len = g.len ∧
        0 < g1.table.length ∧ ((4 * (g.len + 1) ≤ 3 * g.table.length ∧ w1 = w ∧ g1 = g ∧ cs1 = cs) ∨ (3 * g.table.length < 4 * (g.len + 1) ∧ Fresh w w1 cs1)) := by
      by_cases hc : 4 * (g.len + 1) > 3 * g.table.length
      · rw [if_pos hc]
        obtain ⟨w1, g1, cs1, a1, a2, a3, a4, a5, a6, a7, a8⟩ := resize_self_run h 1
        exact ⟨w1, g1, cs1, a1, a2, a3, a4, a5, a6, a7, .inr ⟨hc, a8⟩⟩
      · rw [if_neg hc]; exact ⟨w, g, cs, rfl, h, Eff.refl _ _ _, rfl, rfl, rfl, hpos, .inl ⟨by omega, rfl, rfl, rfl⟩⟩
    obtain ⟨w1, g1, cs1, a1, a2, a3, a4, a5, a6, a7, a8⟩ := grown
    have hk1 : ∀ c ∈ cs1, KeyOps.eq k c.k = false := by
      have h1 : ∀ e ∈ kv cs1, KeyOps.eq k e.1 = false := by rw [a4]; exact kv_forall hk
      intro c hc
      exact h1 (c.k, c.v) (List.mem_map_of_mem (f := fun c => (c.k, c.v)) hc)
    obtain ⟨w2, g2, b1, b2, b3, b4, b5, b6⟩ := appendNode_run (k := k) (v := v) a2 a7 rfl
    have hd1 : Distinct cs1 := distinct_kv hg.distinct (by rw [a4])
    have hl1 : cs1.length = cs.length := by rw [← kv_length, a4, kv_length]
    refine ⟨⟨w2.nodes, w2.maps.set m { g2 with len := g2.len + 1 }⟩, { g2 with len := g2.len + 1 },
      cs1 ++ [⟨w1.nodes.length, KeyOps.freeze k, v⟩], start _ ?_, b2.setMap { g2 with len := g2.len + 1 } rfl rfl rfl, ⟨?_, ?_, distinct_snoc hd1 hk1⟩,
      a3.trans (b3.trans Eff.setMap), ?_, by simp only; rw [b4, a5, hz], by simp only; rw [b6]; exact a7, ?_⟩
    · rw [M.bind_ok (find_miss h.core hk hhd)]
      dsimp only
      rw [lookup_miss (kv_forall hk)]
      by_cases hc : 4 * (g.len + 1) > 3 * g.table.length
      · rw [if_pos hc] at a1 ⊢
        rw [M.bind_ok a1, M.bind_ok (getMap_run a2.map), M.bind_ok b1, M.bind_ok (getMap_run b2.map),
          M.bind_ok setMap_run]
        rfl
      · rw [if_neg hc] at a1 ⊢
        simp only [M.pure_run, Res.ok.injEq, true_and] at a1
        subst a1
        rw [M.bind_ok (getMap_run a2.map), M.bind_ok b1, M.bind_ok (getMap_run b2.map),
          M.bind_ok setMap_run]
        rfl
    · simp only [List.length_append, List.length_singleton, b5, a6, hg.len, hl1]
    · simp only; rw [b6]; omega
    · rw [insert_miss (kv_forall hk), kv_append, a4]; rfl
    · rcases a8 with ⟨e1, rfl, rfl, rfl⟩ | ⟨hc, hf⟩
      · exact .room hk e1 b6
      · exact .grown hk hc (hf.trans a3.grow (b3.trans Eff.setMap))
  · obtain ⟨n, hn, hnk, hnv⟩ := h.core.seg.mem_node c (by simp)
    obtain ⟨r1, r2⟩ := setValue_run v h hn
    refine ⟨_, g, _, start _ ?_, r1, ⟨by rw [hg.len]; simp, hg.tbl, distinct_setVal hg.distinct⟩, r2, ?_, hz, hpos, .hit rfl hk rfl⟩
    · rw [M.bind_ok (find_hit h.core hk hB hhd)]
      dsimp only
      rw [M.bind_ok (getNode_run hn), M.bind_ok setNode_run, kv_append, kv_cons, lookup_hit (kv_forall hA) hk, hnv]
      rfl
    · simp only [kv_append, kv_cons]
      rw [insert_hit (kv_forall hA) hk (kv_forall hB)]

theorem putAllEntry_run [LawfulKey K] {w : World K V} {m : MRef} {g : HM} {cs : List (Cell K V)} (h : RepM w m g cs)
    (hd : Distinct cs) (hpos : 0 < g.table.length) (k : K) (v : V) :
    ∃ w' g' cs' d, putAllEntry m k v w = .ok d w' ∧ RepM w' m g' cs' ∧ Distinct cs' ∧ Eff w w' m cs cs' ∧
      kv cs' = insert (kv cs) k v ∧ g'.frozen = g.frozen ∧ 0 < g'.table.length ∧ cs'.length = cs.length + d ∧
      ((∃ c ∈ cs, KeyOps.eq k c.k = true) → cs'.map (fun c => (c.p, c.k)) = cs.map (fun c => (c.p, c.k))) ∧
      (∀ c ∈ cs, ∃ n n', w.nodes[c.p]? = some n ∧ w'.nodes[c.p]? = some n' ∧
        ((∃ c ∈ cs, KeyOps.eq k c.k = true) → n'.next = n.next)) := by
  obtain ⟨hd', hhd⟩ := tbl_slot hpos h.core.size (KeyOps.hash k)
  rcases split_key k hd with hk | ⟨A, c, B, rfl, hk, hA, hB⟩
  · obtain ⟨w2, g2, b1, b2, b3, b4, b5, b6⟩ := appendNode_run (k := k) (v := v) h hpos rfl
    have hno : ¬ ∃ c ∈ cs, KeyOps.eq k c.k = true := by
      rintro ⟨c, hc, e⟩; rw [hk c hc] at e; cases e
    refine ⟨w2, g2, _, 1, ?_, b2, distinct_snoc hd hk, b3, ?_, b4, by omega, by simp, fun h => absurd h hno, ?_⟩
    · rw [putAllEntry, M.bind_ok (getMap_run h.map)]
      rw [M.bind_ok (tblGet_run hhd), M.bind_ok fuel_run, M.bind_ok (find_miss h.core hk hhd)]
      dsimp only
      rw [M.bind_ok b1]
      rfl
    · rw [insert_miss (kv_forall hk), kv_append]; rfl
    · intro c hc
      obtain ⟨n, hn, _⟩ := h.core.seg.mem_node c hc
      obtain ⟨n', hn', _⟩ := b2.core.seg.mem_node c (by simp [hc])
      exact ⟨n, n', hn, hn', fun h => absurd h hno⟩
  · obtain ⟨n, hn, hnk, hnv⟩ := h.core.seg.mem_node c (by simp)
    obtain ⟨r1, r2⟩ := setValue_run v h hn
    refine ⟨_, g, _, 0, ?_, r1, distinct_setVal hd, r2, ?_, rfl, hpos, by simp, by simp, ?_⟩
    · rw [putAllEntry, M.bind_ok (getMap_run h.map)]
      rw [M.bind_ok (tblGet_run hhd), M.bind_ok fuel_run, M.bind_ok (find_hit h.core hk hB hhd)]
      dsimp only
      rw [M.bind_ok (getNode_run hn), M.bind_ok setNode_run]
      rfl
    · simp only [kv_append, kv_cons]
      rw [insert_hit (kv_forall hA) hk (kv_forall hB)]
    · intro d hd
      obtain ⟨nd, hnd, _⟩ := h.core.seg.mem_node d hd
      by_cases e : c.p = d.p
      · rw [← e] at hnd ⊢
        rw [hn] at hnd; cases hnd
        exact ⟨n, { n with value := v }, hn, List.getElem?_set_self (List.getElem?_eq_some_iff.1 hn).1, fun _ => rfl⟩
      · exact ⟨nd, nd, hnd, by rw [List.getElem?_set_ne e]; exact hnd, fun _ => rfl⟩

/-- The loop of `PutAll`, reading another map whose nodes are not those of `m`. -/
theorem putAllLoop_other [LawfulKey K] {w : World K V} {m : MRef} {g : HM} {cs as : List (Cell K V)} {f cur pv lst l}
    (h : RepM w m g cs) (hd : Distinct cs) (hpos : 0 < g.table.length)
    (hs : Seg w.nodes pv cur as lst none) (hdis : ∀ a ∈ as, a.p ∉ cs.map (·.p)) (hf : as.length ≤ f)
    (hl : l = cs.length) :
    ∃ w' g' cs', putAllLoop m f cur l w = .ok cs'.length w' ∧ RepM w' m g' cs' ∧ Distinct cs' ∧ Eff w w' m cs cs' ∧
      kv cs' = insertAll (kv cs) (kv as) ∧ g'.frozen = g.frozen ∧ 0 < g'.table.length := by
  induction as generalizing w g cs f cur pv l with
  | nil =>
    simp only [Seg] at hs
    rw [hs.2]
    refine ⟨w, g, cs, ?_, h, hd, Eff.refl _ _ _, rfl, rfl, hpos⟩
    cases f <;> simp only [putAllLoop, M.pure_run, hl]
  | cons a as ih =>
    obtain ⟨f, rfl⟩ : ∃ f', f = f' + 1 := ⟨f - 1, by simp at hf; omega⟩
    have hlt := hs.mem_lt
    obtain ⟨rfl, n, h1, h2, h3, h4, h5⟩ := hs
    obtain ⟨w1, g1, cs1, d, b1, b2, b3, b4, b5, b6, b7, b8, _, _⟩ := putAllEntry_run h hd hpos n.key n.value
    have keep : ∀ x ∈ a :: as, w1.nodes[x.p]? = w.nodes[x.p]? := fun x hx => b4.frame _ (hlt x hx) (hdis x hx)
    have hdis1 : ∀ x ∈ as, x.p ∉ cs1.map (·.p) := by
      intro x hx hc
      obtain ⟨y, hy, e⟩ := List.mem_map.1 hc
      rcases b4.own y hy with h | h
      · exact hdis x (by simp [hx]) (by rw [← e]; exact h)
      · have := hlt x (by simp [hx]); omega
    obtain ⟨w2, g2, cs2, c1, c2, c3, c4, c5, c6, c7⟩ := ih (f := f) (l := l + d) b2 b3 b7
      (h5.frame (SameSeg.of_eq fun x hx => keep x (by simp [hx]))) hdis1 (by simp at hf; omega) (by omega)
    refine ⟨w2, g2, cs2, ?_, c2, c3, b4.trans c4, ?_, by rw [c6, b6], c7⟩
    · rw [putAllLoop, M.bind_ok (getNode_run h1), M.bind_ok b1,
        M.bind_ok (getNode_run (n := n) (by rw [keep a (by simp), h1])), c1]
    · rw [c5, b5, h2, h3]; rfl

omit [KeyOps K] in
theorem keys_of_pk {cs cs' : List (Cell K V)} (h : cs'.map (fun c => (c.p, c.k)) = cs.map (fun c => (c.p, c.k))) :
    cs'.map (·.p) = cs.map (·.p) ∧ cs'.map (·.k) = cs.map (·.k) := by
  have h1 := congrArg (List.map Prod.fst) h
  have h2 := congrArg (List.map Prod.snd) h
  simp only [List.map_map] at h1 h2
  exact ⟨h1, h2⟩

/-- The loop of `PutAll` reading the map that it writes. -/
theorem putAllLoop_self [LawfulKey K] {w : World K V} {m : MRef} {g : HM} {cs pre rest : List (Cell K V)} {f cur pv l}
    (h : RepM w m g cs) (hd : Distinct cs) (hpos : 0 < g.table.length) (hcs : cs = pre ++ rest)
    (hs : Seg w.nodes pv cur rest g.last none) (hf : rest.length ≤ f) (hl : l = cs.length) :
    ∃ w', putAllLoop m f cur l w = .ok cs.length w' ∧ RepM w' m g cs ∧ Eff w w' m cs cs := by
  induction rest generalizing w cs pre f cur pv l with
  | nil =>
    simp only [Seg] at hs
    rw [hs.2]
    refine ⟨w, ?_, h, Eff.refl _ _ _⟩
    cases f <;> simp only [putAllLoop, M.pure_run, hl]
  | cons a rest ih =>
    obtain ⟨f, rfl⟩ : ∃ f', f = f' + 1 := ⟨f - 1, by simp at hf; omega⟩
    obtain ⟨rfl, n, h1, h2, h3, h4, h5⟩ := hs
    subst hcs
    have hA : ∀ x ∈ pre, KeyOps.eq a.k x.k = false := by
      intro x hx
      rw [LawfulKey.comm]
      exact (List.pairwise_append.1 hd).2.2 x hx a (by simp)
    have hB : ∀ x ∈ rest, KeyOps.eq a.k x.k = false :=
      fun x hx => (List.pairwise_cons.1 (List.pairwise_append.1 hd).2.1).1 x hx
    obtain ⟨hd', hhd⟩ := tbl_slot hpos h.core.size (KeyOps.hash a.k)
    obtain ⟨r1, r2⟩ := setValue_run n.value h h1
    have e1 : ({ a with v := n.value } : Cell K V) = a := by rw [h3]
    have e2 : ({ n with value := n.value } : Node K V) = n := rfl
    rw [e1, e2] at r1 r2
    have e3 : w.nodes.set a.p n = w.nodes := set_same h1
    rw [e3] at r1 r2
    obtain ⟨w2, c1, c2, c3⟩ := ih (w := w) (cs := pre ++ a :: rest) (pre := pre ++ [a]) (f := f) (cur := n.next)
      (pv := some a.p) (l := l + 0) h hd (by simp) h5 (by simp at hf; omega) (by omega)
    refine ⟨w2, ?_, c2, c3⟩
    have hp : putAllEntry m n.key n.value w = .ok 0 w := by
      rw [putAllEntry, M.bind_ok (getMap_run h.map), h2]
      rw [M.bind_ok (tblGet_run hhd), M.bind_ok fuel_run, M.bind_ok (find_hit h.core (LawfulKey.refl a.k) hB hhd)]
      dsimp only
      rw [M.bind_ok (getNode_run h1), M.bind_ok setNode_run, e2, e3]
      rfl
    rw [putAllLoop, M.bind_ok (getNode_run h1), M.bind_ok hp, M.bind_ok (getNode_run h1), c1]

theorem insertAll_self [LawfulKey K] {es : List (K × V)} (h : DistinctKeys es) : insertAll es es = es := by
  have key : ∀ pre rest : List (K × V), DistinctKeys (pre ++ rest) → insertAll (pre ++ rest) rest = pre ++ rest := by
    intro pre rest
    induction rest generalizing pre with
    | nil => intro _; rfl
    | cons e rest ih =>
      intro hd
      have hA : ∀ x ∈ pre, KeyOps.eq e.1 x.1 = false := by
        intro x hx
        rw [LawfulKey.comm]
        exact (List.pairwise_append.1 hd).2.2 x hx e (by simp)
      have hB : ∀ x ∈ rest, KeyOps.eq e.1 x.1 = false :=
        fun x hx => (List.pairwise_cons.1 (List.pairwise_append.1 hd).2.1).1 x hx
      have h1 : insertAll (pre ++ e :: rest) (e :: rest) = insertAll (insert (pre ++ e :: rest) e.1 e.2) rest := rfl
      rw [h1, insert_hit hA (LawfulKey.refl e.1) hB]
      have := ih (pre ++ [e]) (by simpa using hd)
      simpa using this
  have := key [] es (by simpa using h)
  simpa using this

theorem distinct_iff {cs : List (Cell K V)} : DistinctKeys (kv cs) ↔ Distinct cs := by
  unfold DistinctKeys Distinct kv
  rw [List.pairwise_map]

end Verif.HMap
