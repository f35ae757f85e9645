import Verif.HMap.Resize
/-! The three ways in which nodes change: a new last node, a new value, an unlinked node. -/
set_option linter.unusedSimpArgs false
namespace Verif.HMap

variable {K V : Type}

theorem cell_inj {cs : List (Cell K V)} (h : (cs.map (·.p)).Nodup) {a b : Cell K V} (ha : a ∈ cs) (hb : b ∈ cs)
    (e : a.p = b.p) : a = b := by
  induction cs with
  | nil => cases ha
  | cons c cs ih =>
    rw [List.map_cons, List.nodup_cons] at h
    rcases List.mem_cons.1 ha with e1 | h1 <;> rcases List.mem_cons.1 hb with e2 | h2
    · rw [e1, e2]
    · exact absurd (by rw [← e1, e]; exact List.mem_map_of_mem h2) h.1
    · exact absurd (by rw [← e2, ← e]; exact List.mem_map_of_mem h1) h.1
    · exact ih h.2 h1 h2

theorem set_same {α : Type} {l : List α} {i : Nat} {a : α} (h : l[i]? = some a) : l.set i a = l := by
  obtain ⟨h1, rfl⟩ := List.getElem?_eq_some_iff.1 h
  exact List.set_getElem_self h1

/-! ### A new value in a node -/

/-- `cs` with the value of the node at `p` replaced. -/
def setV (p : Ptr) (v : V) (cs : List (Cell K V)) : List (Cell K V) :=
  cs.map fun d => if d.p = p then { d with v := v } else d

theorem setV_ne {p : Ptr} {v : V} {cs : List (Cell K V)} (h : p ∉ cs.map (·.p)) : setV p v cs = cs := by
  unfold setV
  rw [List.map_congr_left (g := id)]
  · simp
  · intro d hd
    rw [if_neg]
    · rfl
    · intro e; exact h (by rw [← e]; exact List.mem_map_of_mem hd)

theorem setV_p {p : Ptr} {v : V} {cs : List (Cell K V)} : (setV p v cs).map (·.p) = cs.map (·.p) := by
  unfold setV
  rw [List.map_map]
  apply List.map_congr_left
  intro d _
  simp only [Function.comp]
  split <;> rfl

theorem Seg.setV {nodes : List (Node K V)} {cs : List (Cell K V)} {pv cur pv' cur'} {p : Ptr} {v : V} {n : Node K V}
    (hn : nodes[p]? = some n) (h : Seg nodes pv cur cs pv' cur') :
    Seg (nodes.set p { n with value := v }) pv cur (setV p v cs) pv' cur' := by
  induction cs generalizing pv cur with
  | nil => exact h
  | cons c cs ih =>
    obtain ⟨h1, m, h2, h3, h4, h5, h6⟩ := h
    by_cases hc : c.p = p
    · rw [hc, hn] at h2; cases h2
      have : HMap.setV p v (c :: cs) = { c with v := v } :: HMap.setV p v cs := by simp [HMap.setV, hc]
      rw [this]
      refine ⟨h1, { n with value := v }, ?_, h3, rfl, h5, ih h6⟩
      simp only [hc]
      exact List.getElem?_set_self (List.getElem?_eq_some_iff.1 hn).1
    · have : HMap.setV p v (c :: cs) = c :: HMap.setV p v cs := by simp [HMap.setV, hc]
      rw [this]
      refine ⟨h1, m, ?_, h3, h4, h5, ih h6⟩
      rw [List.getElem?_set_ne (fun e => hc e.symm), h2]

theorem Chain.setV {nodes : List (Node K V)} {cs : List (Cell K V)} {cur cur'} {p : Ptr} {v : V} {n : Node K V}
    (hn : nodes[p]? = some n) (h : Chain nodes cur cs cur') :
    Chain (nodes.set p { n with value := v }) cur (setV p v cs) cur' := by
  induction cs generalizing cur with
  | nil => exact h
  | cons c cs ih =>
    obtain ⟨h1, m, h2, h3, h4, h6⟩ := h
    by_cases hc : c.p = p
    · rw [hc, hn] at h2; cases h2
      have : HMap.setV p v (c :: cs) = { c with v := v } :: HMap.setV p v cs := by simp [HMap.setV, hc]
      rw [this]
      refine ⟨h1, { n with value := v }, ?_, h3, rfl, ih h6⟩
      simp only [hc]
      exact List.getElem?_set_self (List.getElem?_eq_some_iff.1 hn).1
    · have : HMap.setV p v (c :: cs) = c :: HMap.setV p v cs := by simp [HMap.setV, hc]
      rw [this]
      refine ⟨h1, m, ?_, h3, h4, ih h6⟩
      rw [List.getElem?_set_ne (fun e => hc e.symm), h2]

variable [KeyOps K]

theorem bucket_setV {tl i : Nat} {cs : List (Cell K V)} {p : Ptr} {v : V} :
    bucket tl i (setV p v cs) = setV p v (bucket tl i cs) := by
  unfold bucket setV
  rw [List.map_reverse, List.filter_map]
  congr 2
  apply List.filter_congr
  intro d _
  simp only [Function.comp]
  split <;> rfl

theorem Core.setV {nodes : List (Node K V)} {tbl first last cs} (h : Core nodes tbl first last cs) {p : Ptr} {v : V}
    {n : Node K V} (hn : nodes[p]? = some n) :
    Core (nodes.set p { n with value := v }) tbl first last (setV p v cs) where
  seg := h.seg.setV hn
  chains i q hq := by rw [bucket_setV]; exact (h.chains i q hq).setV hn
  nodup := by rw [setV_p]; exact h.nodup
  size := h.size
  empty e := by rw [h.empty e]; rfl

omit [KeyOps K] in
theorem setV_mid {A B : List (Cell K V)} {c : Cell K V} {v : V} (h : ((A ++ c :: B).map (·.p)).Nodup) :
    setV c.p v (A ++ c :: B) = A ++ { c with v := v } :: B := by
  rw [List.map_append, List.map_cons, List.nodup_append, List.nodup_cons] at h
  have hA : c.p ∉ A.map (·.p) := fun hc => h.2.2 _ hc _ (by simp) rfl
  have : setV c.p v (A ++ c :: B) = setV c.p v A ++ { c with v := v } :: setV c.p v B := by simp [setV]
  rw [this, setV_ne hA, setV_ne h.2.1.1]

/-! ### Unlinking a node -/

omit [KeyOps K] in
theorem lastP_concat {pp : Option Ptr} {A : List (Cell K V)} {q : Cell K V} : lastP pp (A ++ [q]) = some q.p := by
  simp [lastP]

/-- First part of the unlinking: the bucket. -/
theorem unlink_chain {nodes : List (Node K V)} {tbl first last} {A B : List (Cell K V)} {c : Cell K V} {e : Node K V}
    (h : Core nodes tbl first last (A ++ c :: B)) (he : nodes[c.p]? = some e) {hk : Nat}
    (hhk : hk = slot tbl.length (KeyOps.hash c.k)) :
    (lastP none (bucket tbl.length hk B) = none ∧
      ∀ i p, (tbl.set hk e.hashNext)[i]? = some p → Chain nodes p (bucket tbl.length i (A ++ B)) none) ∨
    (∃ q qn, lastP none (bucket tbl.length hk B) = some q ∧ nodes[q]? = some qn ∧ q ∈ (A ++ B).map (·.p) ∧ q ≠ c.p ∧
      ∀ i p, tbl[i]? = some p →
        Chain (nodes.set q { qn with hashNext := e.hashNext }) p (bucket tbl.length i (A ++ B)) none) := by
  have hnd := h.nodup
  have hlt : hk < tbl.length := by
    by_cases h0 : tbl.length = 0
    · have := h.empty h0; simp at this
    · rw [hhk]; exact slot_lt (by omega) h.size _
  obtain ⟨hd, hhd⟩ : ∃ hd, tbl[hk]? = some hd := ⟨_, List.getElem?_eq_getElem hlt⟩
  have hch := h.chains _ _ hhd
  rw [bucket_append, bucket_cons_self hhk.symm, List.append_assoc, List.singleton_append] at hch
  have hother : ∀ i, i ≠ hk → bucket tbl.length i (A ++ B) = bucket tbl.length i (A ++ c :: B) := by
    intro i hi
    rw [bucket_append, bucket_append, bucket_cons_other (by rw [← hhk]; exact fun e => hi e.symm)]
  rcases List.eq_nil_or_concat (bucket tbl.length hk B) with hb | ⟨X, q, hb⟩
  · left
    rw [hb] at hch ⊢
    refine ⟨rfl, ?_⟩
    intro i p hp
    by_cases hi : i = hk
    · subst hi
      rw [List.getElem?_set_self hlt] at hp
      cases hp
      rw [bucket_append, hb, List.nil_append]
      obtain ⟨_, e', h2, _, _, h5⟩ := hch
      rw [he] at h2; cases h2
      exact h5
    · rw [List.getElem?_set_ne (fun e => hi e.symm)] at hp
      rw [hother i hi]
      exact h.chains i p hp
  · right
    rw [List.concat_eq_append] at hb
    have hqb : q ∈ bucket tbl.length hk B := by rw [hb]; simp
    have hqB := bucket_sub q hqb
    have hqcs : q ∈ A ++ c :: B := by simp [hqB]
    obtain ⟨qn, hqn, _⟩ := h.seg.mem_node q hqcs
    have hqc : q.p ≠ c.p := by
      rw [List.map_append, List.nodup_append, List.map_cons, List.nodup_cons] at hnd
      intro e
      exact hnd.2.1.1 (by rw [← e]; exact List.mem_map_of_mem hqB)
    refine ⟨q.p, qn, by rw [hb, lastP_concat], hqn, ?_, hqc, ?_⟩
    · rw [List.map_append, List.mem_append]; right; exact List.mem_map_of_mem hqB
    intro i p hp
    by_cases hi : i = hk
    · subst hi
      rw [hhd] at hp; cases hp
      rw [hb] at hch
      rw [bucket_append, hb]
      obtain ⟨cm, h1, h2⟩ := Chain.append.1 hch
      obtain ⟨_, e', h3, _, _, h5⟩ := h2
      rw [he] at h3; cases h3
      -- pointers of this bucket are distinct
      have hbd : ((bucket tbl.length i B ++ bucket tbl.length i A).map (·.p)).Nodup := by
        have h6 : (bucket tbl.length i (A ++ c :: B)).map (·.p) =
            (((A ++ c :: B).filter (fun c => slot tbl.length (KeyOps.hash c.k) = i)).map (·.p)).reverse := by
          unfold bucket; rw [List.map_reverse]
        have h7 : ((bucket tbl.length i (A ++ c :: B)).map (·.p)).Nodup := by
          rw [h6]
          refine List.pairwise_reverse.2 (List.Pairwise.imp (fun h => Ne.symm h) ?_)
          exact hnd.sublist (List.Sublist.map _ List.filter_sublist)
        rw [bucket_append, bucket_cons_self hhk.symm] at h7
        refine h7.sublist (List.Sublist.map _ ?_)
        simp
      rw [hb, List.append_assoc, List.map_append, List.nodup_append] at hbd
      have hqX : q.p ∉ X.map (·.p) := fun hc => hbd.2.2 _ hc _ (by simp) rfl
      have hqA : q.p ∉ (bucket tbl.length i A).map (·.p) := by
        have := hbd.2.1
        rw [List.singleton_append, List.map_cons, List.nodup_cons] at this
        exact this.1
      rw [Chain.append]
      refine ⟨e.hashNext, h1.set_hashNext hqX hqn, h5.frame (SameChain.of_eq ?_)⟩
      intro d hd
      rw [List.getElem?_set_ne]
      intro e; exact hqA (by rw [e]; exact List.mem_map_of_mem hd)
    · rw [hother i hi]
      refine (h.chains i p hp).frame (SameChain.of_eq ?_)
      intro d hd
      rw [List.getElem?_set_ne]
      intro e
      have hdq : q = d := cell_inj hnd hqcs (bucket_sub d hd) e
      subst hdq
      unfold bucket at hd hqb
      rw [List.mem_reverse, List.mem_filter] at hd hqb
      have e1 := of_decide_eq_true hd.2
      have e2 := of_decide_eq_true hqb.2
      exact hi (by rw [← e1, ← e2])

omit [KeyOps K] in
/-- Second and third part of the unlinking: the list. -/
theorem unlink_seg {nodes : List (Node K V)} {first last} {A B : List (Cell K V)} {c : Cell K V} {e : Node K V}
    (h : Seg nodes none first (A ++ c :: B) last none) (hnd : ((A ++ c :: B).map (·.p)).Nodup)
    (he : nodes[c.p]? = some e) :
    ((A = [] ∧ e.prev = none ∧ first = some c.p) ∨ ∃ A' q qn, A = A' ++ [q] ∧ e.prev = some q.p ∧ nodes[q.p]? = some qn ∧ qn.next = some c.p) ∧
    ((B = [] ∧ e.next = none ∧ last = some c.p) ∨ ∃ r B' rn, B = r :: B' ∧ e.next = some r.p ∧ nodes[r.p]? = some rn ∧ rn.prev = some c.p) ∧
    Seg nodes none first A e.prev (some c.p) ∧ Seg nodes (some c.p) e.next B last none := by
  obtain ⟨pm, cm, h1, h2⟩ := Seg.append.1 h
  obtain ⟨rfl, e', h3, h4, h5, h6, h7⟩ := h2
  rw [he] at h3; cases h3
  refine ⟨?_, ?_, by rw [h6]; exact h1, h7⟩
  · rcases List.eq_nil_or_concat A with rfl | ⟨A', q, rfl⟩
    · left; simp only [Seg] at h1; exact ⟨rfl, by rw [h6, ← h1.1], h1.2⟩
    · right
      rw [List.concat_eq_append] at h1 ⊢
      obtain ⟨_, _, _, _, qn, e1, _, _, _, e2⟩ := Seg.append.1 h1
      simp only [Seg] at e2
      exact ⟨A', q, qn, rfl, by rw [h6, ← e2.1], e1, e2.2⟩
  · cases B with
    | nil => left; simp only [Seg] at h7; exact ⟨rfl, h7.2, h7.1.symm⟩
    | cons r B' =>
      right
      obtain ⟨e1, rn, e2, e3, e4, e5, e6⟩ := h7
      exact ⟨r, B', rn, rfl, e1, e2, e5⟩

/-- What an operation on map `m` with cells `cs` may do to the heap, leaving the cells `cs'`. -/
structure Eff (w w' : World K V) (m : MRef) (cs cs' : List (Cell K V)) : Prop where
  nmaps : w'.maps.length = w.maps.length
  maps : ∀ j, j ≠ m → w'.maps[j]? = w.maps[j]?
  grow : w.nodes.length ≤ w'.nodes.length
  own : ∀ c ∈ cs', c.p ∈ cs.map (·.p) ∨ w.nodes.length ≤ c.p
  frame : ∀ p, p < w.nodes.length → p ∉ cs.map (·.p) → w'.nodes[p]? = w.nodes[p]?

omit [KeyOps K] in
theorem Eff.refl (w : World K V) (m : MRef) (cs : List (Cell K V)) : Eff w w m cs cs where
  nmaps := rfl
  maps _ _ := rfl
  grow := Nat.le_refl _
  own _ hc := .inl (List.mem_map_of_mem hc)
  frame _ _ _ := rfl

omit [KeyOps K] in
theorem Eff.trans {w w1 w2 : World K V} {m : MRef} {cs cs1 cs2 : List (Cell K V)} (h1 : Eff w w1 m cs cs1)
    (h2 : Eff w1 w2 m cs1 cs2) : Eff w w2 m cs cs2 where
  nmaps := by rw [h2.nmaps, h1.nmaps]
  maps j hj := by rw [h2.maps j hj, h1.maps j hj]
  grow := Nat.le_trans h1.grow h2.grow
  own c hc := by
    rcases h2.own c hc with h | h
    · obtain ⟨d, hd, e⟩ := List.mem_map.1 h
      rw [← e]; exact h1.own d hd
    · exact .inr (Nat.le_trans h1.grow h)
  frame p hp hc := by
    have hp1 : p ∉ cs1.map (·.p) := by
      intro h
      obtain ⟨d, hd, e⟩ := List.mem_map.1 h
      rcases h1.own d hd with h | h
      · exact hc (by rw [← e]; exact h)
      · omega
    rw [h2.frame p (Nat.lt_of_lt_of_le hp h1.grow) hp1, h1.frame p hp hc]

/-- Map `m` holds the cells `cs`. -/
structure RepM (w : World K V) (m : MRef) (g : HM) (cs : List (Cell K V)) : Prop where
  map : w.maps[m]? = some g
  core : Core w.nodes g.table g.first g.last cs

theorem RepM.lt {w : World K V} {m g cs} (h : RepM w m g cs) : m < w.maps.length :=
  (List.getElem?_eq_some_iff.1 h.map).1

theorem RepM.frame {w w' : World K V} {m m' g cs cs1 cs2} (h : RepM w m g cs) (he : Eff w w' m' cs1 cs2) (hm : m ≠ m')
    (hd : ∀ c ∈ cs, c.p ∉ cs1.map (·.p)) : RepM w' m g cs where
  map := by rw [he.maps m hm, h.map]
  core := h.core.frame fun c hc => he.frame _ (h.core.lt c hc) (hd c hc)

theorem unlink_run {w : World K V} {m : MRef} {g : HM} {A B : List (Cell K V)} {c : Cell K V}
    (h : RepM w m g (A ++ c :: B)) {hk : Nat} (hhk : hk = slot g.table.length (KeyOps.hash c.k)) :
    ∃ w' g', unlink m hk (lastP none (bucket g.table.length hk B)) c.p w = .ok () w' ∧ RepM w' m g' (A ++ B) ∧
      Eff w w' m (A ++ c :: B) (A ++ B) ∧ g'.frozen = g.frozen ∧ g'.len = g.len - 1 ∧
      g'.table.length = g.table.length ∧ w'.nodes[c.p]? = w.nodes[c.p]? := by
  obtain ⟨hm, hcore⟩ := h
  have hml := (List.getElem?_eq_some_iff.1 hm).1
  have hnd := hcore.nodup
  obtain ⟨e, he, hek, hev⟩ := hcore.seg.mem_node c (by simp)
  have hcl := (List.getElem?_eq_some_iff.1 he).1
  obtain ⟨sA, sB, segA, segB⟩ := unlink_seg hcore.seg hnd he
  have hndAB : ((A ++ B).map (·.p)).Nodup := by
    refine hnd.sublist (List.Sublist.map _ ?_)
    exact List.Sublist.append (List.Sublist.refl _) (List.sublist_cons_self _ _)
  have hcA : c.p ∉ A.map (·.p) := by
    rw [List.map_append, List.nodup_append] at hnd
    exact fun hc => hnd.2.2 _ hc _ (by simp) rfl
  have hcB : c.p ∉ B.map (·.p) := by
    rw [List.map_append, List.nodup_append, List.map_cons, List.nodup_cons] at hnd
    exact hnd.2.1.1
  have hAB : ∀ a ∈ A, ∀ b ∈ B, a.p ≠ b.p := by
    rw [List.map_append, List.nodup_append] at hndAB
    intro a ha b hb
    exact hndAB.2.2 _ (List.mem_map_of_mem ha) _ (List.mem_map_of_mem hb)
  -- step 1
  have step1 : ∃ (nodes1 : List (Node K V)) (tbl1 : List (Option Ptr)), unlinkBucket m hk (lastP none (bucket g.table.length hk B)) e w =
        .ok () ⟨nodes1, w.maps.set m { g with table := tbl1 }⟩ ∧ tbl1.length = g.table.length ∧
      nodes1.length = w.nodes.length ∧
      (∀ i p, tbl1[i]? = some p → Chain nodes1 p (bucket g.table.length i (A ++ B)) none) ∧
      (∀ p, p ∉ (A ++ B).map (·.p) → nodes1[p]? = w.nodes[p]?) ∧
      (∀ (p : Ptr) (n : Node K V), w.nodes[p]? = some n → ∃ n1 : Node K V, nodes1[p]? = some n1 ∧ n1.key = n.key ∧ n1.value = n.value ∧ n1.prev = n.prev ∧ n1.next = n.next) := by
    rcases unlink_chain hcore he hhk with ⟨h1, h2⟩ | ⟨q, qn, h1, h2, h3, h4, h5⟩
    · refine ⟨w.nodes, g.table.set hk e.hashNext, ?_, by simp, rfl, h2, fun _ _ => rfl, fun p n hn => ⟨n, hn, rfl, rfl, rfl, rfl⟩⟩
      simp only [unlinkBucket, unlinkPrev, unlinkNext, h1]
      rw [M.bind_ok (getMap_run hm), setMap_run]
    · refine ⟨w.nodes.set q { qn with hashNext := e.hashNext }, g.table, ?_, rfl, by simp, h5, ?_, ?_⟩
      · simp only [unlinkBucket, unlinkPrev, unlinkNext, h1]
        rw [M.bind_ok (getNode_run h2), setNode_run]
        congr 2
        exact (set_same hm).symm
      · intro p hp
        rw [List.getElem?_set_ne]
        intro e; subst e; exact hp h3
      · intro p n hn
        by_cases hpq : q = p
        · subst hpq
          rw [h2] at hn; cases hn
          exact ⟨_, List.getElem?_set_self (List.getElem?_eq_some_iff.1 h2).1, rfl, rfl, rfl, rfl⟩
        · rw [List.getElem?_set_ne hpq]
          exact ⟨n, hn, rfl, rfl, rfl, rfl⟩
  obtain ⟨nodes1, tbl1, run1, tl1, nl1, ch1, fr1, same1⟩ := step1
  have segA1 : Seg nodes1 none g.first A e.prev (some c.p) := segA.frame fun d _ n hn => same1 d.p n hn
  have segB1 : Seg nodes1 (some c.p) e.next B g.last none := segB.frame fun d _ n hn => same1 d.p n hn
  -- step 2
  have step2 : ∃ (nodes2 : List (Node K V)) (first2 : Option Ptr), unlinkPrev m e ⟨nodes1, w.maps.set m { g with table := tbl1 }⟩ =
        .ok () ⟨nodes2, w.maps.set m { g with table := tbl1, first := first2 }⟩ ∧
      nodes2.length = w.nodes.length ∧
      Seg nodes2 none first2 A e.prev e.next ∧ Seg nodes2 (some c.p) e.next B g.last none ∧
      (∀ p, p ∉ A.map (·.p) → nodes2[p]? = nodes1[p]?) ∧
      (∀ (p : Ptr) (n : Node K V), nodes1[p]? = some n → ∃ n1 : Node K V, nodes2[p]? = some n1 ∧ n1.key = n.key ∧ n1.value = n.value ∧ n1.hashNext = n.hashNext) := by
    rcases sA with ⟨rfl, h1, h2⟩ | ⟨A', q, qn, rfl, h1, h2, h3⟩
    · refine ⟨nodes1, e.next, ?_, nl1, ?_, segB1, fun _ _ => rfl, fun p n hn => ⟨n, hn, rfl, rfl, rfl⟩⟩
      · simp only [unlinkBucket, unlinkPrev, unlinkNext, h1]
        rw [M.bind_ok (getMap_run (g := { g with table := tbl1 }) (List.getElem?_set_self hml)), setMap_run]
        simp
      · rw [h1]; exact ⟨rfl, rfl⟩
    · obtain ⟨qn1, hq1, e1, e2, e3, e4⟩ := same1 _ _ h2
      have hqA' : q.p ∉ A'.map (·.p) := by
        rw [List.map_append, List.map_append, List.nodup_append, List.nodup_append] at hndAB
        exact fun hc => hndAB.1.2.2 _ hc _ (by simp) rfl
      refine ⟨nodes1.set q.p { qn1 with next := e.next }, g.first, ?_, by simp [nl1], ?_, ?_, ?_, ?_⟩
      · simp only [unlinkBucket, unlinkPrev, unlinkNext, h1]
        rw [M.bind_ok (getNode_run hq1), setNode_run]
      · exact segA1.set_next hqA' hq1
      · refine segB1.frame (SameSeg.of_eq fun d hd => ?_)
        rw [List.getElem?_set_ne]
        exact hAB q (by simp) d hd
      · intro p hp
        rw [List.getElem?_set_ne]
        intro e; subst e; apply hp; simp
      · intro p n hn
        by_cases hpq : q.p = p
        · subst hpq
          rw [hq1] at hn; cases hn
          exact ⟨_, List.getElem?_set_self (List.getElem?_eq_some_iff.1 hq1).1, rfl, rfl, rfl⟩
        · rw [List.getElem?_set_ne hpq]
          exact ⟨n, hn, rfl, rfl, rfl⟩
  obtain ⟨nodes2, first2, run2, nl2, segA2, segB2, fr2, same2⟩ := step2
  -- step 3
  have step3 : ∃ (nodes3 : List (Node K V)) (last3 : Option Ptr), unlinkNext m e ⟨nodes2, w.maps.set m { g with table := tbl1, first := first2 }⟩ =
        .ok () ⟨nodes3, w.maps.set m { g with table := tbl1, first := first2, last := last3 }⟩ ∧
      nodes3.length = w.nodes.length ∧
      Seg nodes3 none first2 (A ++ B) last3 none ∧
      (∀ p, p ∉ B.map (·.p) → nodes3[p]? = nodes2[p]?) ∧
      (∀ (p : Ptr) (n : Node K V), nodes2[p]? = some n → ∃ n1 : Node K V, nodes3[p]? = some n1 ∧ n1.key = n.key ∧ n1.value = n.value ∧ n1.hashNext = n.hashNext) := by
    rcases sB with ⟨rfl, h1, h2⟩ | ⟨r, B', rn, rfl, h1, h2, h3⟩
    · refine ⟨nodes2, e.prev, ?_, nl2, ?_, fun _ _ => rfl, fun p n hn => ⟨n, hn, rfl, rfl, rfl⟩⟩
      · simp only [unlinkBucket, unlinkPrev, unlinkNext, h1]
        rw [M.bind_ok (getMap_run (g := { g with table := tbl1, first := first2 }) (List.getElem?_set_self hml)), setMap_run]
        simp
      · rw [List.append_nil]; rw [h1] at segA2; exact segA2
    · obtain ⟨rn1, hr1, _⟩ := same1 _ _ h2
      obtain ⟨rn2, hr2, _⟩ := same2 _ _ hr1
      have hrB' : r.p ∉ B'.map (·.p) := by
        rw [List.map_append, List.nodup_append, List.map_cons, List.nodup_cons] at hndAB
        exact hndAB.2.1.1
      refine ⟨nodes2.set r.p { rn2 with prev := e.prev }, g.last, ?_, by simp [nl2], ?_, ?_, ?_⟩
      · simp only [unlinkBucket, unlinkPrev, unlinkNext, h1]
        rw [M.bind_ok (getNode_run hr2), setNode_run]
      · rw [Seg.append]
        refine ⟨e.prev, e.next, segA2.frame (SameSeg.of_eq fun d hd => ?_), segB2.set_prev hrB' hr2⟩
        rw [List.getElem?_set_ne]
        intro e
        exact hAB d hd r (by simp) e.symm
      · intro p hp
        rw [List.getElem?_set_ne]
        intro e; subst e; apply hp; simp
      · intro p n hn
        by_cases hpq : r.p = p
        · subst hpq
          rw [hr2] at hn; cases hn
          exact ⟨_, List.getElem?_set_self (List.getElem?_eq_some_iff.1 hr2).1, rfl, rfl, rfl⟩
        · rw [List.getElem?_set_ne hpq]
          exact ⟨n, hn, rfl, rfl, rfl⟩
  obtain ⟨nodes3, last3, run3, nl3, seg3, fr3, same3⟩ := step3
  refine ⟨⟨nodes3, w.maps.set m { g with table := tbl1, first := first2, last := last3, len := g.len - 1 }⟩,
    { g with table := tbl1, first := first2, last := last3, len := g.len - 1 }, ?_, ⟨?_, ?_⟩, ?_, rfl, rfl, tl1, ?_⟩
  · rw [unlink, M.bind_ok (getNode_run he)]
    rw [M.bind_ok run1, M.bind_ok run2, M.bind_ok run3]
    rw [M.bind_ok (getMap_run (g := { g with table := tbl1, first := first2, last := last3 }) (List.getElem?_set_self hml)), setMap_run]
    simp
  · exact List.getElem?_set_self hml
  · refine ⟨seg3, ?_, hndAB, by rw [tl1]; exact hcore.size, ?_⟩
    · intro i p hp
      rw [tl1]
      refine ((ch1 i p hp).frame ?_)
      intro d hd n hn
      obtain ⟨n2, a1, a2, a3, a4⟩ := same2 _ _ hn
      obtain ⟨n3, b1, b2, b3, b4⟩ := same3 _ _ a1
      exact ⟨n3, b1, by rw [b2, a2], by rw [b3, a3], by rw [b4, a4]⟩
    · rw [tl1]
      intro h0
      have := hcore.empty h0
      simp at this
  · refine ⟨by simp, ?_, by simp [nl3], ?_, ?_⟩
    · intro j hj
      exact List.getElem?_set_ne (fun e => hj e.symm)
    · intro d hd
      left
      refine List.mem_map_of_mem ?_
      rcases List.mem_append.1 hd with h | h <;> simp [h]
    · intro p hp hnp
      have hpA : p ∉ A.map (·.p) := fun h => hnp (by rw [List.map_append, List.mem_append]; exact .inl h)
      have hpB : p ∉ B.map (·.p) := fun h => hnp (by rw [List.map_append, List.mem_append, List.map_cons]; exact .inr (List.mem_cons_of_mem _ h))
      have hpAB : p ∉ (A ++ B).map (·.p) := by
        rw [List.map_append, List.mem_append]; exact fun h => h.elim hpA hpB
      rw [fr3 p hpB, fr2 p hpA, fr1 p hpAB]
  · rw [fr3 _ hcB, fr2 _ hcA, fr1 _ (by rw [List.map_append, List.mem_append]; exact fun h => h.elim hcA hcB)]

end Verif.HMap
