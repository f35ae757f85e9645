import Verif.HMap.Rep
/-! The reading functions: lookup in a bucket chain, walk along the list. -/
namespace Verif.HMap

variable {K V : Type}

theorem getMap_run {w : World K V} {m : MRef} {g : HM} (h : w.maps[m]? = some g) : getMap m w = .ok g w := by
  simp only [getMap, h]

theorem getNode_run {w : World K V} {p : Ptr} {n : Node K V} (h : w.nodes[p]? = some n) : getNode p w = .ok n w := by
  simp only [getNode, h]

theorem tblGet_run {w : World K V} {tbl : List (Option Ptr)} {i : Nat} {p : Option Ptr} (h : tbl[i]? = some p) :
    tblGet tbl i w = .ok p w := by
  simp only [tblGet, h]

theorem setMap_run {w : World K V} {m : MRef} {g : HM} :
    setMap m g w = .ok () { w with maps := w.maps.set m g } := rfl
theorem setNode_run {w : World K V} {p : Ptr} {n : Node K V} :
    setNode p n w = .ok () { w with nodes := w.nodes.set p n } := rfl
theorem allocNode_run {w : World K V} {n : Node K V} :
    allocNode n w = .ok w.nodes.length { w with nodes := w.nodes ++ [n] } := rfl
theorem allocMap_run {w : World K V} {g : HM} :
    allocMap g w = .ok w.maps.length { w with maps := w.maps ++ [g] } := rfl
theorem fuel_run {w : World K V} : fuel w = .ok (w.nodes.length + 1) w := rfl

/-- The last cell of `A`, or `pp` when `A` is empty. -/
def lastP (pp : Option Ptr) (A : List (Cell K V)) : Option Ptr :=
  match A.getLast? with
  | some q => some q.p
  | none => pp

theorem lastP_cons (pp : Option Ptr) (c : Cell K V) (A : List (Cell K V)) :
    lastP pp (c :: A) = lastP (some c.p) A := by
  unfold lastP
  cases A with
  | nil => simp
  | cons a A => simp [List.getLast?_cons_cons]; cases h : (a :: A).getLast? <;> simp_all

variable [KeyOps K]

theorem findChain_hit {k : K} {w : World K V} {A : List (Cell K V)} {c : Cell K V} {B : List (Cell K V)} {f pp cur x}
    (h : Chain w.nodes cur (A ++ c :: B) x) (hf : A.length + 1 ≤ f) (hA : ∀ a ∈ A, KeyOps.eq k a.k = false)
    (hc : KeyOps.eq k c.k = true) :
    findChain k f pp cur w = .ok (some (lastP pp A, c.p)) w := by
  induction A generalizing f pp cur with
  | nil =>
    obtain ⟨f, rfl⟩ : ∃ f', f = f' + 1 := ⟨f - 1, by simp at hf; omega⟩
    obtain ⟨rfl, n, h1, h2, h3, h4⟩ := h
    simp only [findChain, M.bind_ok (getNode_run h1), h2, hc, if_true, M.pure_run]
    rfl
  | cons a A ih =>
    obtain ⟨f, rfl⟩ : ∃ f', f = f' + 1 := ⟨f - 1, by simp at hf; omega⟩
    obtain ⟨rfl, n, h1, h2, h3, h4⟩ := h
    simp only [findChain, M.bind_ok (getNode_run h1), h2, hA a (by simp)]
    rw [lastP_cons]
    exact ih h4 (by simp at hf ⊢; omega) (fun a ha => hA a (by simp [ha]))

theorem findChain_miss {k : K} {w : World K V} {A : List (Cell K V)} {f pp cur}
    (h : Chain w.nodes cur A none) (hf : A.length ≤ f) (hA : ∀ a ∈ A, KeyOps.eq k a.k = false) :
    findChain k f pp cur w = .ok none w := by
  induction A generalizing f pp cur with
  | nil =>
    simp only [Chain] at h
    subst h
    cases f <;> simp only [findChain, M.pure_run]
  | cons a A ih =>
    obtain ⟨f, rfl⟩ : ∃ f', f = f' + 1 := ⟨f - 1, by simp at hf; omega⟩
    obtain ⟨rfl, n, h1, h2, h3, h4⟩ := h
    simp only [findChain, M.bind_ok (getNode_run h1), h2, hA a (by simp)]
    exact ih h4 (by simp at hf; omega) (fun a ha => hA a (by simp [ha]))

omit [KeyOps K] in
theorem walk_run {w : World K V} {cs : List (Cell K V)} {f pv cur pv'}
    (h : Seg w.nodes pv cur cs pv' none) (hf : cs.length ≤ f) :
    walk f cur w = .ok (cs.map fun c => (c.k, c.v)) w := by
  induction cs generalizing f pv cur with
  | nil =>
    simp only [Seg] at h
    rw [h.2]
    cases f <;> simp only [walk, M.pure_run, List.map_nil]
  | cons a A ih =>
    obtain ⟨f, rfl⟩ : ∃ f', f = f' + 1 := ⟨f - 1, by simp at hf; omega⟩
    obtain ⟨rfl, n, h1, h2, h3, _, h4⟩ := h
    simp only [walk, M.bind_ok (getNode_run h1), M.bind_ok (ih h4 (by simp at hf; omega)), M.pure_run, h2, h3,
      List.map_cons]

/-! ### Lookup in the whole map -/

/-- What the lookups rely on: `Equals` on keys is an equivalence and the hash respects it. -/
class LawfulKey (K : Type) [KeyOps K] : Prop where
  refl : ∀ a : K, KeyOps.eq a a = true
  symm : ∀ a b : K, KeyOps.eq a b = true → KeyOps.eq b a = true
  trans : ∀ a b c : K, KeyOps.eq a b = true → KeyOps.eq b c = true → KeyOps.eq a c = true
  hash : ∀ a b : K, KeyOps.eq a b = true → KeyOps.hash a = KeyOps.hash b
  frz : ∀ a : K, KeyOps.eq (KeyOps.freeze a) a = true

theorem LawfulKey.congr [LawfulKey K] {a b : K} (h : KeyOps.eq a b = true) (c : K) : KeyOps.eq a c = KeyOps.eq b c := by
  have h' := LawfulKey.symm _ _ h
  cases hb : KeyOps.eq b c
  · cases ha : KeyOps.eq a c
    · rfl
    · rw [LawfulKey.trans _ _ _ h' ha] at hb; cases hb
  · exact LawfulKey.trans _ _ _ h hb

theorem LawfulKey.comm [LawfulKey K] (a b : K) : KeyOps.eq a b = KeyOps.eq b a := by
  cases hb : KeyOps.eq b a
  · cases ha : KeyOps.eq a b
    · rfl
    · rw [LawfulKey.symm _ _ ha] at hb; cases hb
  · exact LawfulKey.symm _ _ hb

/-- All keys are different. -/
def Distinct (cs : List (Cell K V)) : Prop := cs.Pairwise fun a b => KeyOps.eq a.k b.k = false

/-- Splitting at the entry with key `k`, or knowing that there is none. -/
theorem split_key [LawfulKey K] (k : K) {cs : List (Cell K V)} (hd : Distinct cs) :
    (∀ c ∈ cs, KeyOps.eq k c.k = false) ∨
    (∃ A c B, cs = A ++ c :: B ∧ KeyOps.eq k c.k = true ∧ (∀ a ∈ A, KeyOps.eq k a.k = false) ∧
      (∀ b ∈ B, KeyOps.eq k b.k = false)) := by
  induction cs with
  | nil => left; simp
  | cons c cs ih =>
    have hd' := List.pairwise_cons.1 hd
    cases hk : KeyOps.eq k c.k
    · rcases ih hd'.2 with h | ⟨A, d, B, rfl, h1, h2, h3⟩
      · left
        intro x hx
        rcases List.mem_cons.1 hx with rfl | hx
        · exact hk
        · exact h x hx
      · right
        refine ⟨c :: A, d, B, rfl, h1, ?_, h3⟩
        intro x hx
        rcases List.mem_cons.1 hx with rfl | hx
        · exact hk
        · exact h2 x hx
    · right
      refine ⟨[], c, cs, rfl, hk, by simp, ?_⟩
      intro b hb
      rw [LawfulKey.congr hk]
      exact hd'.1 b hb

theorem bucket_append {tl i : Nat} {A B : List (Cell K V)} : bucket tl i (A ++ B) = bucket tl i B ++ bucket tl i A := by
  unfold bucket
  rw [List.filter_append, List.reverse_append]

theorem bucket_cons_self {tl i : Nat} {B : List (Cell K V)} {c : Cell K V} (h : slot tl (KeyOps.hash c.k) = i) :
    bucket tl i (c :: B) = bucket tl i B ++ [c] := by
  unfold bucket
  rw [List.filter_cons_of_pos (by simp [h]), List.reverse_cons]

theorem bucket_cons_other {tl i : Nat} {B : List (Cell K V)} {c : Cell K V} (h : slot tl (KeyOps.hash c.k) ≠ i) :
    bucket tl i (c :: B) = bucket tl i B := by
  unfold bucket
  rw [List.filter_cons_of_neg (by simp [h])]

theorem tbl_slot {tbl : List (Option Ptr)} (hpos : 0 < tbl.length) (hsz : tbl.length ≤ 2 ^ 30) (h : BitVec 64) :
    ∃ hd, tbl[slot tbl.length h]? = some hd := by
  have := slot_lt hpos hsz h
  exact ⟨_, List.getElem?_eq_getElem this⟩

/-- The lookup used by every operation finds exactly the entry with an equal key. -/
theorem find_hit [LawfulKey K] {w : World K V} {tbl first last} {A B : List (Cell K V)} {c : Cell K V} {k : K} {hd}
    (h : Core w.nodes tbl first last (A ++ c :: B)) (hk : KeyOps.eq k c.k = true)
    (hB : ∀ b ∈ B, KeyOps.eq k b.k = false)
    (hhd : tbl[slot tbl.length (KeyOps.hash k)]? = some hd) :
    findChain k (w.nodes.length + 1) none hd w =
      .ok (some (lastP none (bucket tbl.length (slot tbl.length (KeyOps.hash k)) B), c.p)) w := by
  have hc := h.chains _ _ hhd
  rw [bucket_append, bucket_cons_self (by rw [LawfulKey.hash _ _ hk]), List.append_assoc] at hc
  refine findChain_hit hc ?_ ?_ hk
  · have := h.bound
    have h2 := bucket_length (tl := tbl.length) (i := slot tbl.length (KeyOps.hash k)) (cs := B)
    simp at this
    omega
  · intro a ha
    exact hB a (bucket_sub a ha)

theorem find_miss {w : World K V} {tbl first last} {cs : List (Cell K V)} {k : K} {hd}
    (h : Core w.nodes tbl first last cs) (hk : ∀ c ∈ cs, KeyOps.eq k c.k = false)
    (hhd : tbl[slot tbl.length (KeyOps.hash k)]? = some hd) :
    findChain k (w.nodes.length + 1) none hd w = .ok none w := by
  refine findChain_miss (h.chains _ _ hhd) ?_ ?_
  · have := h.bound
    have h2 := bucket_length (tl := tbl.length) (i := slot tbl.length (KeyOps.hash k)) (cs := cs)
    omega
  · intro a ha
    exact hk a (bucket_sub a ha)

end Verif.HMap
