import Verif.HMap.TableSize
/-! Representation predicate of the hash map and the lemmas on its two kinds of linked lists. -/
namespace Verif.HMap

variable {K V : Type}

/-- An entry of a map together with the address of its node. -/
structure Cell (K V : Type) where
  p : Ptr
  k : K
  v : V

/-- A doubly linked segment: entered from `pv` through `cur`, left from `pv'` to `cur'`. -/
def Seg (nodes : List (Node K V)) : Option Ptr → Option Ptr → List (Cell K V) → Option Ptr → Option Ptr → Prop
  | pv, cur, [], pv', cur' => pv = pv' ∧ cur = cur'
  | pv, cur, c :: cs, pv', cur' => cur = some c.p ∧ ∃ n, nodes[c.p]? = some n ∧ n.key = c.k ∧ n.value = c.v ∧
      n.prev = pv ∧ Seg nodes (some c.p) n.next cs pv' cur'

/-- A bucket chain segment through `hashNext`. -/
def Chain (nodes : List (Node K V)) : Option Ptr → List (Cell K V) → Option Ptr → Prop
  | cur, [], cur' => cur = cur'
  | cur, c :: cs, cur' => cur = some c.p ∧ ∃ n, nodes[c.p]? = some n ∧ n.key = c.k ∧ n.value = c.v ∧
      Chain nodes n.hashNext cs cur'

theorem Seg.append {nodes : List (Node K V)} {A B : List (Cell K V)} {pv cur pv' cur'} :
    Seg nodes pv cur (A ++ B) pv' cur' ↔ ∃ pm cm, Seg nodes pv cur A pm cm ∧ Seg nodes pm cm B pv' cur' := by
  induction A generalizing pv cur with
  | nil =>
    simp only [List.nil_append, Seg]
    exact ⟨fun h => ⟨_, _, ⟨rfl, rfl⟩, h⟩, fun ⟨_, _, ⟨e1, e2⟩, h⟩ => by rw [e1, e2]; exact h⟩
  | cons c cs ih =>
    simp only [List.cons_append, Seg, ih]
    constructor
    · rintro ⟨h1, n, h2, h3, h4, h5, pm, cm, h6, h7⟩
      exact ⟨pm, cm, ⟨h1, n, h2, h3, h4, h5, h6⟩, h7⟩
    · rintro ⟨pm, cm, ⟨h1, n, h2, h3, h4, h5, h6⟩, h7⟩
      exact ⟨h1, n, h2, h3, h4, h5, pm, cm, h6, h7⟩

theorem Chain.append {nodes : List (Node K V)} {A B : List (Cell K V)} {cur cur'} :
    Chain nodes cur (A ++ B) cur' ↔ ∃ cm, Chain nodes cur A cm ∧ Chain nodes cm B cur' := by
  induction A generalizing cur with
  | nil => simp [Chain]
  | cons c cs ih =>
    simp only [List.cons_append, Chain, ih]
    constructor
    · rintro ⟨h1, n, h2, h3, h4, cm, h6, h7⟩
      exact ⟨cm, ⟨h1, n, h2, h3, h4, h6⟩, h7⟩
    · rintro ⟨cm, ⟨h1, n, h2, h3, h4, h6⟩, h7⟩
      exact ⟨h1, n, h2, h3, h4, cm, h6, h7⟩

/-- `nodes'` holds the same entries and list links as `nodes` at the given cells. -/
def SameSeg (nodes nodes' : List (Node K V)) (cs : List (Cell K V)) : Prop :=
  ∀ c ∈ cs, ∀ n, nodes[c.p]? = some n → ∃ n', nodes'[c.p]? = some n' ∧ n'.key = n.key ∧ n'.value = n.value ∧
    n'.prev = n.prev ∧ n'.next = n.next

def SameChain (nodes nodes' : List (Node K V)) (cs : List (Cell K V)) : Prop :=
  ∀ c ∈ cs, ∀ n, nodes[c.p]? = some n → ∃ n', nodes'[c.p]? = some n' ∧ n'.key = n.key ∧ n'.value = n.value ∧
    n'.hashNext = n.hashNext

theorem Seg.frame {nodes nodes' : List (Node K V)} {cs : List (Cell K V)} {pv cur pv' cur'}
    (h : Seg nodes pv cur cs pv' cur') (hs : SameSeg nodes nodes' cs) : Seg nodes' pv cur cs pv' cur' := by
  induction cs generalizing pv cur with
  | nil => exact h
  | cons c cs ih =>
    obtain ⟨h1, n, h2, h3, h4, h5, h6⟩ := h
    obtain ⟨n', e1, e2, e3, e4, e5⟩ := hs c (by simp) n h2
    refine ⟨h1, n', e1, by rw [e2, h3], by rw [e3, h4], by rw [e4, h5], ?_⟩
    rw [e5]
    exact ih h6 (fun c' hc' => hs c' (by simp [hc']))

theorem Chain.frame {nodes nodes' : List (Node K V)} {cs : List (Cell K V)} {cur cur'}
    (h : Chain nodes cur cs cur') (hs : SameChain nodes nodes' cs) : Chain nodes' cur cs cur' := by
  induction cs generalizing cur with
  | nil => exact h
  | cons c cs ih =>
    obtain ⟨h1, n, h2, h3, h4, h6⟩ := h
    obtain ⟨n', e1, e2, e3, e5⟩ := hs c (by simp) n h2
    refine ⟨h1, n', e1, by rw [e2, h3], by rw [e3, h4], ?_⟩
    rw [e5]
    exact ih h6 (fun c' hc' => hs c' (by simp [hc']))

/-- Nodes outside a segment can be changed freely. -/
theorem SameSeg.of_eq {nodes nodes' : List (Node K V)} {cs : List (Cell K V)}
    (h : ∀ c ∈ cs, nodes'[c.p]? = nodes[c.p]?) : SameSeg nodes nodes' cs := by
  intro c hc n hn
  exact ⟨n, by rw [h c hc, hn], rfl, rfl, rfl, rfl⟩

theorem SameChain.of_eq {nodes nodes' : List (Node K V)} {cs : List (Cell K V)}
    (h : ∀ c ∈ cs, nodes'[c.p]? = nodes[c.p]?) : SameChain nodes nodes' cs := by
  intro c hc n hn
  exact ⟨n, by rw [h c hc, hn], rfl, rfl, rfl⟩

theorem Seg.mem_node {nodes : List (Node K V)} {cs : List (Cell K V)} {pv cur pv' cur'}
    (h : Seg nodes pv cur cs pv' cur') : ∀ c ∈ cs, ∃ n, nodes[c.p]? = some n ∧ n.key = c.k ∧ n.value = c.v := by
  induction cs generalizing pv cur with
  | nil => simp
  | cons c cs ih =>
    obtain ⟨h1, n, h2, h3, h4, h5, h6⟩ := h
    intro c' hc'
    rcases List.mem_cons.1 hc' with rfl | hc'
    · exact ⟨n, h2, h3, h4⟩
    · exact ih h6 c' hc'

theorem Seg.mem_lt {nodes : List (Node K V)} {cs : List (Cell K V)} {pv cur pv' cur'}
    (h : Seg nodes pv cur cs pv' cur') : ∀ c ∈ cs, c.p < nodes.length := by
  intro c hc
  obtain ⟨n, hn, _⟩ := h.mem_node c hc
  exact (List.getElem?_eq_some_iff.1 hn).1

/-- Changing the exit link of a segment. -/
theorem Seg.set_next {nodes : List (Node K V)} {A : List (Cell K V)} {q : Cell K V} {pv cur pv' cur' x : Option Ptr}
    {n : Node K V} (h : Seg nodes pv cur (A ++ [q]) pv' cur') (hq : q.p ∉ A.map (·.p)) (hn : nodes[q.p]? = some n) :
    Seg (nodes.set q.p { n with next := x }) pv cur (A ++ [q]) pv' x := by
  rw [Seg.append] at h ⊢
  obtain ⟨pm, cm, h1, h2⟩ := h
  refine ⟨pm, cm, h1.frame (SameSeg.of_eq ?_), ?_⟩
  · intro c hc
    rw [List.getElem?_set_ne]
    intro e; exact hq (by rw [e]; exact List.mem_map_of_mem hc)
  · obtain ⟨e1, n', e2, e3, e4, e5, e6⟩ := h2
    rw [hn] at e2; cases e2
    refine ⟨e1, _, List.getElem?_set_self (List.getElem?_eq_some_iff.1 hn).1, e3, e4, e5, ?_⟩
    simp only [Seg] at e6 ⊢
    exact ⟨e6.1, trivial⟩

/-- Changing the entry link of a segment. -/
theorem Seg.set_prev {nodes : List (Node K V)} {B : List (Cell K V)} {r : Cell K V} {pv cur pv' cur' x : Option Ptr}
    {n : Node K V} (h : Seg nodes pv cur (r :: B) pv' cur') (hr : r.p ∉ B.map (·.p)) (hn : nodes[r.p]? = some n) :
    Seg (nodes.set r.p { n with prev := x }) x cur (r :: B) pv' cur' := by
  obtain ⟨e1, n', e2, e3, e4, e5, e6⟩ := h
  rw [hn] at e2; cases e2
  refine ⟨e1, _, List.getElem?_set_self (List.getElem?_eq_some_iff.1 hn).1, e3, e4, rfl, ?_⟩
  refine e6.frame (SameSeg.of_eq ?_)
  intro c hc
  rw [List.getElem?_set_ne]
  intro e; exact hr (by rw [e]; exact List.mem_map_of_mem hc)

theorem Chain.set_hashNext {nodes : List (Node K V)} {A : List (Cell K V)} {q : Cell K V} {cur cur' x : Option Ptr}
    {n : Node K V} (h : Chain nodes cur (A ++ [q]) cur') (hq : q.p ∉ A.map (·.p)) (hn : nodes[q.p]? = some n) :
    Chain (nodes.set q.p { n with hashNext := x }) cur (A ++ [q]) x := by
  rw [Chain.append] at h ⊢
  obtain ⟨cm, h1, h2⟩ := h
  refine ⟨cm, h1.frame (SameChain.of_eq ?_), ?_⟩
  · intro c hc
    rw [List.getElem?_set_ne]
    intro e; exact hq (by rw [e]; exact List.mem_map_of_mem hc)
  · obtain ⟨e1, n', e2, e3, e4, e6⟩ := h2
    rw [hn] at e2; cases e2
    refine ⟨e1, _, List.getElem?_set_self (List.getElem?_eq_some_iff.1 hn).1, e3, e4, ?_⟩
    simp only [Chain]

/-- A list of distinct numbers below `n` has at most `n` elements. -/
theorem nodup_bound {l : List Nat} (hd : l.Nodup) {n : Nat} (h : ∀ x ∈ l, x < n) : l.length ≤ n := by
  induction n generalizing l with
  | zero =>
    cases l with
    | nil => simp
    | cons a _ => exact absurd (h a (by simp)) (by omega)
  | succ n ih =>
    have h1 : (l.erase n).Nodup := hd.erase n
    have h2 : ∀ x ∈ l.erase n, x < n := by
      intro x hx
      have hx' := (hd.mem_erase_iff).1 hx
      have := h x hx'.2
      omega
    have := ih h1 h2
    have : l.length ≤ (l.erase n).length + 1 := by
      rw [List.length_erase]; split <;> omega
    omega

variable [KeyOps K]

/-- The chain of bucket `i`: the entries of that slot, youngest first. -/
def bucket (tl i : Nat) (cs : List (Cell K V)) : List (Cell K V) :=
  (cs.filter (fun c => slot tl (KeyOps.hash c.k) = i)).reverse

/-- The linked structure of a map: list of all nodes in insertion order, and one chain per bucket. -/
structure Core (nodes : List (Node K V)) (tbl : List (Option Ptr)) (first last : Option Ptr) (cs : List (Cell K V)) :
    Prop where
  seg : Seg nodes none first cs last none
  chains : ∀ i p, tbl[i]? = some p → Chain nodes p (bucket tbl.length i cs) none
  nodup : (cs.map (·.p)).Nodup
  size : tbl.length ≤ 2 ^ 30
  empty : tbl.length = 0 → cs = []

theorem Core.lt {nodes : List (Node K V)} {tbl first last cs} (h : Core nodes tbl first last cs) :
    ∀ c ∈ cs, c.p < nodes.length := h.seg.mem_lt

theorem Core.bound {nodes : List (Node K V)} {tbl first last cs} (h : Core nodes tbl first last cs) :
    cs.length ≤ nodes.length := by
  have := nodup_bound h.nodup (n := nodes.length) (by
    intro x hx
    obtain ⟨c, hc, rfl⟩ := List.mem_map.1 hx
    exact h.lt c hc)
  simpa using this

theorem bucket_sub {tl i : Nat} {cs : List (Cell K V)} : ∀ c ∈ bucket tl i cs, c ∈ cs := by
  intro c hc
  unfold bucket at hc
  rw [List.mem_reverse, List.mem_filter] at hc
  exact hc.1

theorem bucket_length {tl i : Nat} {cs : List (Cell K V)} : (bucket tl i cs).length ≤ cs.length := by
  unfold bucket
  rw [List.length_reverse]
  exact List.length_filter_le _ _

theorem Core.frame {nodes nodes' : List (Node K V)} {tbl first last cs} (h : Core nodes tbl first last cs)
    (he : ∀ c ∈ cs, nodes'[c.p]? = nodes[c.p]?) : Core nodes' tbl first last cs where
  seg := h.seg.frame (SameSeg.of_eq he)
  chains i p hp := (h.chains i p hp).frame (SameChain.of_eq fun c hc => he c (bucket_sub c hc))
  nodup := h.nodup
  size := h.size
  empty := h.empty

theorem bucket_snoc_self {tl : Nat} {cs : List (Cell K V)} {c : Cell K V} :
    bucket tl (slot tl (KeyOps.hash c.k)) (cs ++ [c]) = c :: bucket tl (slot tl (KeyOps.hash c.k)) cs := by
  unfold bucket
  rw [List.filter_append]
  simp

theorem bucket_snoc_other {tl i : Nat} {cs : List (Cell K V)} {c : Cell K V} (h : slot tl (KeyOps.hash c.k) ≠ i) :
    bucket tl i (cs ++ [c]) = bucket tl i cs := by
  unfold bucket
  rw [List.filter_append]
  simp [h]

/-- The heap after appending a new last node. -/
def snocNodes (nodes : List (Node K V)) (last : Option Ptr) (hn : Option Ptr) (k : K) (v : V) : List (Node K V) :=
  match last with
  | none => nodes ++ [{ key := k, value := v, hashNext := hn, next := none, prev := none }]
  | some l => match nodes[l]? with
    | some ln => (nodes.set l { ln with next := some nodes.length }) ++
        [{ key := k, value := v, hashNext := hn, next := none, prev := some l }]
    | none => nodes

omit [KeyOps K] in
theorem Seg.nil_cases {nodes : List (Node K V)} {cs : List (Cell K V)} {first last}
    (h : Seg nodes none first cs last none) :
    (cs = [] ∧ first = none ∧ last = none) ∨
    (∃ A q n, cs = A ++ [q] ∧ first.isSome ∧ last = some q.p ∧ nodes[q.p]? = some n ∧ n.next = none) := by
  rcases List.eq_nil_or_concat cs with rfl | ⟨A, q, rfl⟩
  · left
    simp only [Seg] at h
    exact ⟨rfl, h.2, h.1.symm⟩
  · right
    rw [List.concat_eq_append] at h ⊢
    obtain ⟨pm, cm, h1, h2, n, h3, h4, h5, h6, h7⟩ := Seg.append.1 h
    simp only [Seg] at h7
    refine ⟨A, q, n, rfl, ?_, h7.1.symm, h3, h7.2⟩
    cases A with
    | nil => simp only [Seg] at h1; rw [h1.2, h2]; rfl
    | cons a A => rw [h1.1]; rfl

/-- Appending a fresh node. -/
theorem Core.snoc {nodes : List (Node K V)} {tbl first last cs} (h : Core nodes tbl first last cs)
    (hpos : 0 < tbl.length) (k : K) (v : V) {hn : Option Ptr}
    (hhn : tbl[slot tbl.length (KeyOps.hash k)]? = some hn) :
    Core (snocNodes nodes last hn k v) (tbl.set (slot tbl.length (KeyOps.hash k)) (some nodes.length))
      (if first = none then some nodes.length else first) (some nodes.length)
      (cs ++ [⟨nodes.length, k, v⟩]) ∧
    (snocNodes nodes last hn k v).length = nodes.length + 1 ∧
    (∀ p, p < nodes.length → p ∉ cs.map (·.p) → (snocNodes nodes last hn k v)[p]? = nodes[p]?) := by
  have hlt := h.lt
  have hfresh : nodes.length ∉ cs.map (·.p) := by
    intro hc
    obtain ⟨c, hc, e⟩ := List.mem_map.1 hc
    have := hlt c hc
    rw [e] at this
    exact Nat.lt_irrefl _ this
  -- a common description of the new heap
  have hdesc : ∃ nd : Node K V, (snocNodes nodes last hn k v)[nodes.length]? = some nd ∧ nd.key = k ∧ nd.value = v ∧
      nd.hashNext = hn ∧ nd.next = none ∧ nd.prev = last ∧
      (snocNodes nodes last hn k v).length = nodes.length + 1 ∧
      (∀ p, p < nodes.length → last ≠ some p → (snocNodes nodes last hn k v)[p]? = nodes[p]?) ∧
      (∀ l, last = some l → ∀ ln, nodes[l]? = some ln →
        (snocNodes nodes last hn k v)[l]? = some { ln with next := some nodes.length }) := by
    rcases h.seg.nil_cases with ⟨rfl, rfl, rfl⟩ | ⟨A, q, n, rfl, hf, rfl, hq, hnn⟩
    · refine ⟨{ key := k, value := v, hashNext := hn, next := none, prev := none }, ?_, rfl, rfl, rfl, rfl, rfl, ?_, ?_, ?_⟩
      · simp [snocNodes]
      · simp [snocNodes]
      · intro p hp _
        simp only [snocNodes]
        rw [List.getElem?_append_left hp]
      · intro l hl; cases hl
    · have hql := (List.getElem?_eq_some_iff.1 hq).1
      refine ⟨{ key := k, value := v, hashNext := hn, next := none, prev := some q.p }, ?_, rfl, rfl, rfl, rfl, rfl, ?_, ?_, ?_⟩
      · simp [snocNodes, hq]
      · simp [snocNodes, hq]
      · intro p hp hne
        simp only [snocNodes, hq]
        rw [List.getElem?_append_left (by simpa using hp), List.getElem?_set_ne]
        intro e; exact hne (by rw [e])
      · intro l hl ln hln
        cases hl
        rw [hq] at hln; cases hln
        simp only [snocNodes, hq]
        rw [List.getElem?_append_left (by simpa using hql), List.getElem?_set_self hql]
  obtain ⟨nd, d1, d2, d3, d4, d5, d6, d7, d8, d9⟩ := hdesc
  have hsamechain : SameChain nodes (snocNodes nodes last hn k v) cs := by
    intro c hc n hcn
    by_cases hl : last = some c.p
    · exact ⟨_, d9 _ hl n hcn, rfl, rfl, rfl⟩
    · exact ⟨n, by rw [d8 c.p (hlt c hc) hl, hcn], rfl, rfl, rfl⟩
  refine ⟨⟨?_, ?_, ?_, by simpa using h.size, fun e => absurd e (by rw [List.length_set]; omega)⟩, d7, ?_⟩
  · -- list
    rcases h.seg.nil_cases with ⟨rfl, rfl, rfl⟩ | ⟨A, q, n, rfl, hf, rfl, hq, hnn⟩
    · simp only [List.nil_append, if_true, Seg]
      exact ⟨trivial, nd, d1, d2, d3, d6, trivial, d5⟩
    · have hqA : q.p ∉ A.map (·.p) := by
        have := h.nodup
        rw [List.map_append, List.nodup_append] at this
        intro hc
        exact this.2.2 _ hc _ (by simp) rfl
      have hne : first ≠ none := by intro e; rw [e] at hf; cases hf
      rw [if_neg hne]
      rw [Seg.append]
      refine ⟨some q.p, some nodes.length, ?_, ?_⟩
      · have h1 := h.seg.set_next hqA hq (x := some nodes.length)
        refine h1.frame ?_
        intro c hc n' hn'
        by_cases hcq : c.p = q.p
        · rw [hcq, List.getElem?_set_self (List.getElem?_eq_some_iff.1 hq).1] at hn'
          cases hn'
          exact ⟨_, by rw [hcq]; exact d9 _ rfl n hq, rfl, rfl, rfl, rfl⟩
        · rw [List.getElem?_set_ne (fun e => hcq e.symm)] at hn'
          have hclt : c.p < nodes.length := (List.getElem?_eq_some_iff.1 hn').1
          exact ⟨n', by rw [d8 _ hclt (by intro e; injection e with e; exact hcq e.symm), hn'], rfl, rfl, rfl, rfl⟩
      · exact ⟨rfl, nd, d1, d2, d3, d6, rfl, d5⟩
  · -- chains
    intro i p hp
    rw [List.length_set]
    by_cases hi : slot tbl.length (KeyOps.hash k) = i
    · subst hi
      have hb := bucket_snoc_self (tl := tbl.length) (cs := cs) (c := ⟨nodes.length, k, v⟩)
      simp only at hb
      rw [hb]
      have hlt2 := (List.getElem?_eq_some_iff.1 hhn).1
      rw [List.getElem?_set_self hlt2] at hp
      cases hp
      refine ⟨rfl, nd, d1, d2, d3, ?_⟩
      rw [d4]
      exact (h.chains _ _ hhn).frame (fun c hc => hsamechain c (bucket_sub c hc))
    · rw [bucket_snoc_other (by simpa using hi)]
      rw [List.getElem?_set_ne hi] at hp
      exact (h.chains _ _ hp).frame (fun c hc => hsamechain c (bucket_sub c hc))
  · -- distinct
    rw [List.map_append, List.nodup_append]
    refine ⟨h.nodup, by simp, ?_⟩
    intro a ha b hb
    simp at hb
    subst hb
    intro e; subst e
    exact hfresh ha
  · intro p hp hnc
    apply d8 p hp
    intro e
    rcases h.seg.nil_cases with ⟨rfl, rfl, rfl⟩ | ⟨A, q, n, rfl, hf, rfl, hq, hnn⟩
    · cases e
    · cases e
      apply hnc; simp

end Verif.HMap
