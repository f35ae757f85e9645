import Verif.Arr.Model
import Mathlib.Tactic.Common
/-! Lemmas on slices and stores. -/
set_option linter.unusedSectionVars false
namespace Verif.Arr
open HMap (KeyOps)

section
variable {V : Type}

/-- The slice lies inside its store. -/
def Inside (st : Stores V) (s : Sl) : Prop := s.store < st.length ∧ s.off + s.len ≤ (storeAt st s.store).length

theorem read_length {st : Stores V} {s : Sl} (h : Inside st s) : (read st s).length = s.len := by
  have := h.2
  simp only [read, List.length_take, List.length_drop]
  omega

theorem storeAt_append_left {st : Stores V} {x : List (Option V)} {i : Nat} (h : i < st.length) :
    storeAt (st ++ [x]) i = storeAt st i := by
  simp only [storeAt]
  rw [List.getElem?_append_left h]

theorem storeAt_append_last {st : Stores V} {x : List (Option V)} : storeAt (st ++ [x]) st.length = x := by
  simp [storeAt]

theorem storeAt_set_self {st : Stores V} {x : List (Option V)} {i : Nat} (h : i < st.length) :
    storeAt (st.set i x) i = x := by
  simp only [storeAt]
  rw [List.getElem?_set_self h]; rfl

theorem storeAt_set_ne {st : Stores V} {x : List (Option V)} {i j : Nat} (h : i ≠ j) :
    storeAt (st.set i x) j = storeAt st j := by
  simp only [storeAt]
  rw [List.getElem?_set_ne h]

theorem overwrite_length {l xs : List (Option V)} {i : Nat} (h : i + xs.length ≤ l.length) :
    (overwrite l i xs).length = l.length := by
  simp only [overwrite, List.length_append, List.length_take, List.length_drop]
  omega

/-- The cells before the written ones are as they were. -/
theorem overwrite_before {l xs : List (Option V)} {i o n : Nat} (h : o + n ≤ i) (hi : i ≤ l.length) :
    ((overwrite l i xs).drop o).take n = (l.drop o).take n := by
  apply List.ext_getElem?
  intro k
  by_cases hk : k < n
  · rw [List.getElem?_take_of_lt hk, List.getElem?_take_of_lt hk, List.getElem?_drop, List.getElem?_drop, overwrite,
      List.append_assoc, List.getElem?_append_left (by rw [List.length_take]; omega), List.getElem?_take_of_lt (by omega)]
  · rw [List.getElem?_eq_none (by rw [List.length_take]; omega), List.getElem?_eq_none (by rw [List.length_take]; omega)]

theorem overwrite_read {l xs : List (Option V)} {o i : Nat} (hi : o + i ≤ l.length) :
    ((overwrite l (o + i) xs).drop o).take (i + xs.length) = (l.drop o).take i ++ xs := by
  unfold overwrite
  have e : l.take (o + i) = l.take o ++ (l.drop o).take i := by rw [List.take_add]
  rw [e, List.append_assoc, List.append_assoc, List.drop_append_of_le_length (by rw [List.length_take]; omega)]
  rw [List.drop_eq_nil_of_le (by rw [List.length_take]; omega), List.nil_append, ← List.append_assoc,
    List.take_append_of_le_length (by simp only [List.length_append, List.length_take, List.length_drop]; omega)]
  apply List.take_of_length_le
  simp only [List.length_append, List.length_take, List.length_drop]; omega

/-- A change of the stores that leaves alone all slices inside them that end before `lim` or are in another store than
`k`. -/
structure Frame (st st' : Stores V) (k lim : Nat) : Prop where
  len : st.length ≤ st'.length
  size : ∀ i, i < st.length → (storeAt st' i).length = (storeAt st i).length
  read : ∀ s, Inside st s → (s.store ≠ k ∨ s.off + s.len ≤ lim) → read st' s = read st s

theorem Frame.refl (st : Stores V) (k lim : Nat) : Frame st st k lim := ⟨Nat.le_refl _, fun _ _ => rfl, fun _ _ _ => rfl⟩

theorem Frame.inside {st st' : Stores V} {k lim : Nat} (h : Frame st st' k lim) {s : Sl} (hs : Inside st s) : Inside st' s := by
  have := h.len
  refine ⟨by have := hs.1; omega, ?_⟩
  rw [h.size s.store hs.1]; exact hs.2

theorem write_frame {st : Stores V} {s : Sl} {i : Nat} {xs : List (Option V)} (hs : s.store < st.length)
    (h : s.off + i + xs.length ≤ (storeAt st s.store).length) : Frame st (write st s i xs) s.store (s.off + i) where
  len := by simp [write]
  size j hj := by
    unfold write
    by_cases e : s.store = j
    · subst e; rw [storeAt_set_self hs, overwrite_length h]
    · rw [storeAt_set_ne e]
  read t ht hd := by
    unfold read write
    by_cases e : s.store = t.store
    · rw [← e, storeAt_set_self hs, overwrite_before (by rcases hd with h | h; exact absurd e.symm h; exact h) (by omega)]
    · rw [storeAt_set_ne e]

theorem write_read {st : Stores V} {s : Sl} {i : Nat} {xs : List (Option V)} (hs : s.store < st.length)
    (h : s.off + i ≤ (storeAt st s.store).length) :
    read (write st s i xs) { s with len := i + xs.length } = (read st { s with len := i }) ++ xs := by
  unfold read write
  rw [storeAt_set_self hs, overwrite_read h]

theorem alloc_frame (st : Stores V) (xs : List (Option V)) (n k lim : Nat) : Frame st (alloc st xs n).2 k lim where
  len := by simp [alloc]
  size j hj := by rw [alloc, storeAt_append_left hj]
  read t ht _ := by unfold read; rw [alloc, storeAt_append_left ht.1]

theorem alloc_read (st : Stores V) (xs : List (Option V)) (n : Nat) : read (alloc st xs n).2 (alloc st xs n).1 = xs := by
  unfold read alloc
  rw [storeAt_append_last]
  simp

theorem alloc_inside (st : Stores V) (xs : List (Option V)) (n : Nat) : Inside (alloc st xs n).2 (alloc st xs n).1 := by
  unfold Inside alloc
  rw [storeAt_append_last]
  simp

theorem take_read {st : Stores V} {s : Sl} {p : Nat} (h : p ≤ s.len) : read st { s with len := p } = (read st s).take p := by
  unfold read
  rw [List.take_take, Nat.min_eq_left h]

/-- What `append` does. -/
structure AppendSpec (st : Stores V) (s : Sl) (xs : List (Option V)) (s' : Sl) (st' : Stores V) : Prop where
  read : read st' s' = read st s ++ xs
  inside : Inside st' s'
  frame : Frame st st' s.store (s.off + s.len)
  place : (s'.store = s.store ∧ s'.off = s.off ∧ s'.len = s.len + xs.length ∧ s.len + xs.length ≤ cap st s) ∨
    (s'.store = st.length ∧ cap st s < s.len + xs.length ∧ ∀ k lim, Frame st st' k lim)

theorem append_spec (grow : Nat → Nat → Nat) {st : Stores V} {s : Sl} (xs : List (Option V)) (hs : Inside st s) :
    AppendSpec st s xs (append grow st s xs).1 (append grow st s xs).2 := by
  unfold append
  simp only
  split
  · rename_i hc
    have hc' : s.len + xs.length ≤ (storeAt st s.store).length - s.off := hc
    have h2 := hs.2
    have hf := write_frame (st := st) (s := s) (i := s.len) (xs := xs) hs.1 (by omega)
    refine ⟨write_read hs.1 hs.2, ⟨?_, ?_⟩, hf, .inl ⟨rfl, rfl, rfl, hc⟩⟩
    · have := hf.len; have := hs.1; simp only; omega
    · simp only; rw [hf.size _ hs.1]; omega
  · rename_i hc
    exact ⟨alloc_read _ _ _, alloc_inside _ _ _, alloc_frame _ _ _ _ _, .inr ⟨rfl, by omega, fun k lim => alloc_frame _ _ _ _ _⟩⟩

theorem removePos_spec {st : Stores V} {s : Sl} {pos : Int} (hs : Inside st s) {v : Option V} {s' : Sl} {st' : Stores V}
    (h : removePos st s pos = some (v, s', st')) :
    0 ≤ pos ∧ pos < s.len ∧ (read st s)[pos.toNat]? = some v ∧ read st' s' = (read st s).eraseIdx pos.toNat ∧
    Inside st' s' ∧ Frame st st' s.store s.off ∧ s'.store = s.store ∧ s'.off = s.off ∧ s'.len = s.len - 1 := by
  unfold removePos at h
  split at h
  · rename_i hp
    have hl := read_length hs
    have h2 := hs.2
    cases h
    have hd : ((read st s).drop (pos.toNat + 1) ++ [none]).length = s.len - pos.toNat := by
      simp only [List.length_append, List.length_drop, hl, List.length_singleton]; omega
    have hf := write_frame (st := st) (s := s) (i := pos.toNat) (xs := (read st s).drop (pos.toNat + 1) ++ [none]) hs.1
      (by rw [hd]; omega)
    refine ⟨hp.1, hp.2, ?_, ?_, ⟨?_, ?_⟩, ⟨hf.len, hf.size, ?_⟩, rfl, rfl, rfl⟩
    · rw [List.getElem?_eq_getElem (by omega)]; rfl
    · have hw := write_read (st := st) (s := s) (i := pos.toNat) (xs := (read st s).drop (pos.toNat + 1) ++ [none]) hs.1
        (by omega)
      rw [hd] at hw
      have e : (⟨s.store, s.off, s.len - 1⟩ : Sl) = { s with len := s.len - 1 } := rfl
      rw [take_read (by omega : s.len - 1 ≤ pos.toNat + (s.len - pos.toNat) ) (s := { s with len := pos.toNat + (s.len - pos.toNat) }), hw,
        take_read (by omega), ← List.append_assoc, List.take_append_of_le_length, List.take_of_length_le, List.eraseIdx_eq_take_drop_succ]
      · simp only [List.length_append, List.length_take, List.length_drop, hl]; omega
      · simp only [List.length_append, List.length_take, List.length_drop, hl]; omega
    · have := hf.len; have := hs.1; simp only; omega
    · simp only; rw [hf.size _ hs.1]; omega
    · intro t ht hd'
      exact hf.read t ht (by rcases hd' with h | h; exact .inl h; exact .inr (by omega))
  · cases h

theorem removePos_none {st : Stores V} {s : Sl} {pos : Int} (h : removePos st s pos = none) : ¬ (0 ≤ pos ∧ pos < s.len) := by
  unfold removePos at h
  split at h
  · cases h
  · assumption

end
end Verif.Arr
