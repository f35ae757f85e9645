import Verif.HMap.Read
/-! `resize` rebuilds the same entries with fresh nodes. -/
namespace Verif.HMap

variable {K V : Type} [KeyOps K]

/-- The entries of a list of cells. -/
def kv (cs : List (Cell K V)) : List (K × V) := cs.map fun c => (c.k, c.v)

omit [KeyOps K] in
@[simp] theorem kv_nil : kv ([] : List (Cell K V)) = [] := rfl
omit [KeyOps K] in
@[simp] theorem kv_cons (c : Cell K V) (cs) : kv (c :: cs) = (c.k, c.v) :: kv cs := rfl
omit [KeyOps K] in
@[simp] theorem kv_append (a b : List (Cell K V)) : kv (a ++ b) = kv a ++ kv b := by simp [kv]
omit [KeyOps K] in
@[simp] theorem kv_length (a : List (Cell K V)) : (kv a).length = a.length := by simp [kv]

theorem Core.first_none {nodes : List (Node K V)} {tbl first last cs} (h : Core nodes tbl first last cs) :
    first = none ↔ last = none := by
  rcases h.seg.nil_cases with ⟨rfl, rfl, rfl⟩ | ⟨A, q, n, rfl, hf, rfl, hq, hnn⟩
  · simp
  · cases first <;> simp at hf ⊢

theorem Core.cs_nil {nodes : List (Node K V)} {tbl first last cs} (h : Core nodes tbl first last cs) :
    cs = [] ↔ first = none := by
  rcases h.seg.nil_cases with ⟨rfl, rfl, rfl⟩ | ⟨A, q, n, rfl, hf, rfl, hq, hnn⟩
  · simp
  · cases first <;> simp at hf ⊢

theorem Core.last_lt {nodes : List (Node K V)} {tbl first l cs} (h : Core nodes tbl first (some l) cs) :
    ∃ n, nodes[l]? = some n := by
  rcases h.seg.nil_cases with ⟨rfl, rfl, h0⟩ | ⟨A, q, n, rfl, hf, h0, hq, hnn⟩
  · cases h0
  · cases h0; exact ⟨n, hq⟩

theorem resizeLoop_run {w : World K V} {rest done : List (Cell K V)} {f cur nt first prev pv lst N}
    (hseg : Seg w.nodes pv cur rest lst none) (hN : ∀ c ∈ rest, c.p < N) (hNl : N ≤ w.nodes.length)
    (hcore : Core w.nodes nt (if prev = none then none else first) prev done) (hdone : ∀ c ∈ done, N ≤ c.p)
    (hpos : 0 < nt.length) (hf : rest.length ≤ f) :
    ∃ nodes' nt' first' last' cs',
      resizeLoop f cur nt first prev w = .ok (nt', first', last') { w with nodes := nodes' } ∧
      Core nodes' nt' (if last' = none then none else first') last' (done ++ cs') ∧ kv cs' = kv rest ∧
      (∀ c ∈ cs', N ≤ c.p) ∧ nt'.length = nt.length ∧ w.nodes.length ≤ nodes'.length ∧
      (∀ p, p < N → nodes'[p]? = w.nodes[p]?) ∧ (last' = none → first' = first) := by
  induction rest generalizing w done f cur nt first prev pv with
  | nil =>
    simp only [Seg] at hseg
    rw [hseg.2]
    refine ⟨w.nodes, nt, first, prev, [], ?_, by simpa using hcore, rfl, by simp, rfl, Nat.le_refl _, fun _ _ => rfl, fun _ => rfl⟩
    cases f <;> simp only [resizeLoop, M.pure_run]
  | cons c rest ih =>
    obtain ⟨f, rfl⟩ : ∃ f', f = f' + 1 := ⟨f - 1, by simp at hf; omega⟩
    obtain ⟨rfl, n, h1, h2, h3, h4, h5⟩ := hseg
    obtain ⟨hn, hhn⟩ := tbl_slot hpos hcore.size (KeyOps.hash n.key)
    obtain ⟨s1, s2, s3⟩ := hcore.snoc hpos n.key n.value hhn
    have hfn : (if prev = none then none else first) = none ↔ prev = none := hcore.first_none
    have hcN : c.p < N := hN c (by simp)
    have hold : ∀ p, p < N → (snocNodes w.nodes prev hn n.key n.value)[p]? = w.nodes[p]? := by
      intro p hp
      refine s3 p (by omega) ?_
      intro hc
      obtain ⟨d, hd, rfl⟩ := List.mem_map.1 hc
      have := hdone d hd
      omega
    have hrun : ∀ K', (∀ fst, fst = (if prev = none then some w.nodes.length else first) →
        resizeLoop f n.next (nt.set (slot nt.length (KeyOps.hash n.key)) (some w.nodes.length)) fst (some w.nodes.length)
          { w with nodes := snocNodes w.nodes prev hn n.key n.value } = K') →
        resizeLoop (f + 1) (some c.p) nt first prev w = K' := by
      intro K' hK
      rw [resizeLoop, M.bind_ok (getNode_run h1), M.bind_ok (tblGet_run hhn), M.bind_ok allocNode_run]
      have h1' := hold c.p hcN
      rw [h1] at h1'
      cases prev with
      | none =>
        simp only [M.pure_bind_run]
        simp only [snocNodes] at hK h1'
        rw [M.bind_ok (getNode_run (n := n) h1')]
        exact hK _ (by simp)
      | some l =>
        obtain ⟨ln, hln⟩ := hcore.last_lt
        have hll := (List.getElem?_eq_some_iff.1 hln).1
        simp only [snocNodes, hln] at hK h1'
        have e1 : (w.nodes ++ [({ key := n.key, value := n.value, hashNext := hn, next := none, prev := none } : Node K V)])[l]? = some ln := by
          rw [List.getElem?_append_left hll, hln]
        dsimp only
        rw [M.bind_ok (getNode_run (n := ln) e1), M.bind_ok setNode_run]
        have e2 : ((w.nodes ++ [({ key := n.key, value := n.value, hashNext := hn, next := none, prev := none } : Node K V)]).set l { ln with next := some w.nodes.length })[w.nodes.length]? = some { key := n.key, value := n.value, hashNext := hn, next := none, prev := none } := by
          rw [List.getElem?_set_ne (by omega)]
          simp
        rw [M.bind_ok (getNode_run e2), M.bind_ok setNode_run]
        rw [M.pure_bind_run]
        have e3 : ((w.nodes ++ [({ key := n.key, value := n.value, hashNext := hn, next := none, prev := none } : Node K V)]).set l { ln with next := some w.nodes.length }).set w.nodes.length { key := n.key, value := n.value, hashNext := hn, next := none, prev := some l } =
            (w.nodes.set l { ln with next := some w.nodes.length }) ++ [{ key := n.key, value := n.value, hashNext := hn, next := none, prev := some l }] := by
          rw [List.set_append_left _ _ hll, List.set_append_right _ _ (by simp)]
          simp
        rw [e3]
        rw [M.bind_ok (getNode_run (n := n) h1')]
        exact hK _ (by simp)
    have hnew : (snocNodes w.nodes prev hn n.key n.value)[c.p]? = some n := by rw [hold _ hcN, h1]
    obtain ⟨nodes', nt', first', last', cs', r1, r2, r3, r4, r5, r6, r7, r8⟩ := ih
      (w := { w with nodes := snocNodes w.nodes prev hn n.key n.value })
      (done := done ++ [⟨w.nodes.length, n.key, n.value⟩]) (f := f) (cur := n.next)
      (nt := nt.set (slot nt.length (KeyOps.hash n.key)) (some w.nodes.length))
      (first := if prev = none then some w.nodes.length else first) (prev := some w.nodes.length) (pv := some c.p)
      (h5.frame (SameSeg.of_eq fun d hd => hold d.p (hN d (by simp [hd]))))
      (fun d hd => hN d (by simp [hd])) (by simp only [s2]; omega)
      (by
        have : (if (if prev = none then none else first) = none then some w.nodes.length else (if prev = none then none else first)) = (if prev = none then some w.nodes.length else first) := by
          by_cases hp : prev = none
          · simp [hp]
          · simp only [hp, if_false] at hfn ⊢
            rw [if_neg (by simp [hfn])]
        rw [this] at s1
        simpa using s1)
      (by
        intro d hd
        rcases List.mem_append.1 hd with hd | hd
        · exact hdone d hd
        · simp at hd; subst hd; exact hNl)
      (by simpa using hpos) (by simp at hf; omega)
    refine ⟨nodes', nt', first', last', ⟨w.nodes.length, n.key, n.value⟩ :: cs', ?_, ?_, ?_, ?_, ?_, ?_, ?_, ?_⟩
    · apply hrun
      intro fst hfst
      rw [hfst]
      exact r1
    · simpa using r2
    · simp [r3, h2, h3]
    · intro d hd
      rcases List.mem_cons.1 hd with rfl | hd
      · exact hNl
      · exact r4 d hd
    · simpa using r5
    · simp only [s2] at r6; omega
    · intro p hp
      rw [r7 p hp]; exact hold p hp
    · intro hl
      have := r2.first_none
      rw [hl] at r2
      have h0 := r2.seg.nil_cases
      rcases h0 with ⟨h0, _⟩ | ⟨_, _, _, _, _, h0, _⟩
      · simp at h0
      · cases h0

/-- `resize` replaces the nodes of `c` by fresh copies of the nodes of `m`. -/
theorem resize_run {w : World K V} {m c : MRef} {g gc : HM} {cs : List (Cell K V)} {inc : Nat}
    (hm : w.maps[m]? = some g) (hc : w.maps[c]? = some gc) (hcore : Core w.nodes g.table g.first g.last cs)
    (hfc : cs = [] → gc.first = none) :
    ∃ nodes' tbl' first' last' cs',
      resize m c inc w = .ok () ⟨nodes', w.maps.set c { gc with table := tbl', first := first', last := last' }⟩ ∧
      Core nodes' tbl' first' last' cs' ∧ kv cs' = kv cs ∧ (∀ d ∈ cs', w.nodes.length ≤ d.p) ∧
      0 < tbl'.length ∧ w.nodes.length ≤ nodes'.length ∧ (∀ p, p < w.nodes.length → nodes'[p]? = w.nodes[p]?) ∧
      tbl'.length = tableSizeFor (g.table.length + inc) := by
  have hempty : Core w.nodes (List.replicate (tableSizeFor (g.table.length + inc)) none) none none
      ([] : List (Cell K V)) := by
    refine ⟨⟨rfl, rfl⟩, ?_, by simp, by simpa using tableSizeFor_le _, fun _ => rfl⟩
    intro i p hp
    rw [List.getElem?_eq_some_iff] at hp
    obtain ⟨_, hp⟩ := hp
    rw [List.getElem_replicate] at hp
    subst hp
    rfl
  obtain ⟨nodes', nt', first', last', cs', r1, r2, r3, r4, r5, r6, r7, r8⟩ := resizeLoop_run (w := w)
    (first := gc.first) (prev := none) (nt := List.replicate (tableSizeFor (g.table.length + inc)) none)
    (N := w.nodes.length) (f := w.nodes.length + 1) hcore.seg (fun c hc => hcore.lt c hc) (Nat.le_refl _)
    (by simpa using hempty) (by simp) (by simpa using tableSizeFor_pos _)
    (by have := hcore.bound; omega)
  refine ⟨nodes', nt', first', last', cs', ?_, ?_, r3, r4, ?_, r6, r7, ?_⟩
  · rw [resize, M.bind_ok (getMap_run hm)]
    simp only []
    rw [M.bind_ok (getMap_run hc), M.bind_ok fuel_run, M.bind_ok r1]
    rfl
  · have hh : (if last' = none then none else first') = first' := by
      by_cases hl : last' = none
      · rw [if_pos hl, r8 hl]
        rw [hl] at r2
        rw [if_pos rfl] at r2
        have h0 := (r2.cs_nil).2 rfl
        simp only [List.nil_append] at h0
        subst h0
        rw [hfc]
        simpa [kv] using r3.symm
      · rw [if_neg hl]
    rw [hh] at r2
    simpa using r2
  · rw [r5]; simpa using tableSizeFor_pos _
  · rw [r5]; simp

end Verif.HMap
