import Verif.Conc.StrHash
/-!
# C122: Asking a string for its hash code is safe in all goroutines
-/
set_option autoImplicit false
set_option linter.unusedVariables false
namespace Verif.Conc.StrHash
open Verif.Value

variable {s : Str}

/-- All writes write the hash code, and a goroutine that is past the test has a hash code to return. -/
theorem seq_inv {h0 : BitVec 64} (h0s : h0 = 0 ∨ h0 = strHash s) {σ : St} (h : Reach Seq h0 s σ) :
    (∀ w ∈ σ.writes, w.2 = strHash s) ∧ (∀ i, σ.pc i = .load → h0 = strHash s ∨ σ.writes ≠ []) ∧
      ∀ r ∈ σ.ret, r.2 = strHash s := by
  have get : ∀ {ws : List (Nat × BitVec 64)} {x : BitVec 64}, (∀ w ∈ ws, w.2 = strHash s) →
      x = (ws.head?.map Prod.snd).getD h0 → (h0 = strHash s ∨ ws ≠ []) → x = strHash s := by
    intro ws x hw hx hl
    cases ws with
    | nil => rcases hl with h | h
             · rw [hx]; exact h
             · exact absurd rfl h
    | cons w ws => rw [hx]; exact hw w (by simp)
  induction h with
  | refl => exact ⟨by simp [start], by simp [start], by simp [start]⟩
  | @tail σ τ _ st ih =>
    obtain ⟨hw, hl, hr⟩ := ih
    cases st with
    | call i hi =>
      refine ⟨hw, fun j hj => ?_, hr⟩
      by_cases hji : j = i
      · subst hji; simp at hj
      · exact hl j (by simpa [upd_other _ _ hji] using hj)
    | test i x hi hx =>
      refine ⟨hw, fun j hj => ?_, hr⟩
      by_cases hji : j = i
      · subst hji
        by_cases hx0 : x = 0
        · simp [hx0] at hj
        · cases hws : σ.writes with
          | nil =>
            left
            have : x = h0 := by simpa [Seq, hws] using hx
            rcases h0s with h | h
            · exact absurd (this.trans h) hx0
            · exact h
          | cons w ws => right; simp
      · exact hl j (by simpa [upd_other _ _ hji] using hj)
    | store i hi =>
      refine ⟨?_, fun j hj => .inr (by simp), hr⟩
      intro w hm
      rcases List.mem_cons.1 hm with rfl | hm
      · rfl
      · exact hw w hm
    | load i x hi hx =>
      refine ⟨hw, fun j hj => ?_, ?_⟩
      · by_cases hji : j = i
        · subst hji; simp at hj
        · exact hl j (by simpa [upd_other _ _ hji] using hj)
      · intro r hm
        rcases List.mem_cons.1 hm with rfl | hm
        · exact get hw hx (hl i hi)
        · exact hr r hm

/-- **C122**, in interleavings: whatever the goroutines do, each call of `HashCode` returns the hash code of the text; this also holds when
that is 0, and when some of the calls were made before. -/
theorem C122_interleaved {h0 : BitVec 64} (h0s : h0 = 0 ∨ h0 = strHash s) {σ : St} (h : Reach Seq h0 s σ) (i : Nat) (x : BitVec 64)
    (hr : (i, x) ∈ σ.ret) : x = strHash s :=
  (seq_inv h0s h).2.2 _ hr

/-- What holds under the memory model of Go -/
theorem weak_inv {h0 : BitVec 64} {σ : St} (h : Reach Weak h0 s σ) :
    (∀ w ∈ σ.writes, w.2 = strHash s) ∧
      (∀ i, σ.pc i = .load → (i ∈ σ.writes.map Prod.fst) ∨ h0 ≠ 0 ∨ ∃ j, j ≠ i ∧ j ∈ σ.writes.map Prod.fst) ∧
      ∀ r ∈ σ.ret, r.2 = strHash s ∨ r.2 = h0 ∧ (h0 ≠ 0 ∨ ∃ j, j ≠ r.1 ∧ j ∈ σ.writes.map Prod.fst) := by
  induction h with
  | refl => exact ⟨by simp [start], by simp [start], by simp [start]⟩
  | @tail σ τ _ st ih =>
    obtain ⟨hw, hl, hr⟩ := ih
    cases st with
    | call i hi =>
      refine ⟨hw, fun j hj => ?_, hr⟩
      by_cases hji : j = i
      · subst hji; simp at hj
      · exact hl j (by simpa [upd_other _ _ hji] using hj)
    | test i x hi hx =>
      refine ⟨hw, fun j hj => ?_, hr⟩
      by_cases hji : j = i
      · subst hji
        by_cases hx0 : x = 0
        · simp [hx0] at hj
        · rcases hx with hx | ⟨k, hk, hm⟩
          · cases hf : σ.writes.find? fun w => w.1 == j with
            | none =>
              right; left
              rw [hf] at hx
              simp at hx
              rw [← hx]; exact hx0
            | some w =>
              left
              have h1 := List.find?_some hf
              have h2 := List.mem_of_find?_eq_some hf
              exact List.mem_map.2 ⟨w, h2, by simpa using h1⟩
          · right; right
            exact ⟨k, hk, List.mem_map.2 ⟨_, hm, rfl⟩⟩
      · exact hl j (by simpa [upd_other _ _ hji] using hj)
    | store i hi =>
      refine ⟨?_, fun j hj => ?_, fun r hm => ?_⟩
      · intro w hm
        rcases List.mem_cons.1 hm with rfl | hm
        · rfl
        · exact hw w hm
      · by_cases hji : j = i
        · subst hji; left; simp
        · right; right; exact ⟨i, fun e => hji e.symm, by simp⟩
      · rcases hr r hm with h | ⟨h, h' | ⟨j, hj, hm'⟩⟩
        · exact .inl h
        · exact .inr ⟨h, .inl h'⟩
        · exact .inr ⟨h, .inr ⟨j, hj, List.mem_cons_of_mem _ hm'⟩⟩
    | load i x hi hx =>
      refine ⟨hw, fun j hj => ?_, fun r hm => ?_⟩
      · by_cases hji : j = i
        · subst hji; simp at hj
        · exact hl j (by simpa [upd_other _ _ hji] using hj)
      · rcases List.mem_cons.1 hm with rfl | hm
        · rcases hx with hx | ⟨k, hk, hm⟩
          · cases hf : σ.writes.find? fun w => w.1 == i with
            | none =>
              rw [hf] at hx
              have hni : i ∉ σ.writes.map Prod.fst := by
                intro hm
                obtain ⟨w, h1, h2⟩ := List.mem_map.1 hm
                have := List.find?_eq_none.1 hf w h1
                simp [h2] at this
              refine .inr ⟨by simpa using hx, (hl i hi).resolve_left hni⟩
            | some w =>
              left
              rw [hf] at hx
              show x = _
              rw [hx]
              exact hw w (List.mem_of_find?_eq_some hf)
          · exact .inl (hw (k, x) hm)
        · exact hr r hm

/-- **C122**, partial, under the memory model of Go: a call returns the hash code of the text, or 0 if another goroutine has computed the
hash code.  So with one goroutine it is right.  What is missing: with two goroutines the 0 can be returned (`C122_reordered_violated`). -/
theorem C122_racing_partial {σ : St} (h : Reach Weak 0 s σ) (i : Nat) (x : BitVec 64) (hr : (i, x) ∈ σ.ret) :
    x = strHash s ∨ x = 0 ∧ ∃ j, j ≠ i ∧ j ∈ σ.writes.map Prod.fst := by
  rcases (weak_inv h).2.2 _ hr with h | ⟨h, h' | h'⟩
  · exact .inl h
  · exact absurd rfl h'
  · exact .inr ⟨h, h'⟩

/-- **C122**, under the memory model of Go: a string whose hash code was asked for before it was handed to the goroutines has that hash code
in all of them, as have the keys of maps. -/
theorem C122_published {σ : St} (h : Reach Weak (strHash s) s σ) (i : Nat) (x : BitVec 64) (hr : (i, x) ∈ σ.ret) : x = strHash s := by
  rcases (weak_inv h).2.2 _ hr with h | ⟨h, _⟩ <;> exact h

/-- **C122** is violated under the memory model of Go: `HashCode` reads the field twice, and where goroutine 0 has written between, the first
read of goroutine 1 may find the hash code and the second may not. -/
theorem C122_reordered_violated (hs : strHash s ≠ 0) : ∃ σ, Reach Weak 0 s σ ∧ (1, 0) ∈ σ.ret := by
  have step {σ τ : St} (h : Reach Weak 0 s σ) (st : Step Weak 0 s σ τ) : Reach Weak 0 s τ := h.tail st
  have r0 : Reach Weak 0 s start := .refl
  have r1 := step r0 (.call _ 0 rfl)
  have r2 := step r1 (.test _ 0 0 (by simp) (.inl rfl))
  have r3 := step r2 (.store _ 0 (by simp))
  have r4 := step r3 (.call _ 1 (by simp [upd, start]))
  have r5 := step r4 (.test _ 1 (strHash s) (by simp) (.inr ⟨0, by decide, by simp⟩))
  have r6 := step r5 (.load _ 1 0 (by simp only [upd_same, if_neg hs]) (.inl (by simp [start])))
  exact ⟨_, r6, by simp⟩

/-- The hash code of `a` is 128. -/
example : strHash [97] = 128 := by decide

/-- One call of goroutine 3, in both memories -/
example : ∃ σ, Reach Seq 0 [97] σ ∧ Reach Weak 0 [97] σ ∧ (3, 128) ∈ σ.ret := by
  have h : strHash [97] = 128 := by decide
  have go (M : Memory) (h1 : M 0 [] 3 0) (h2 : M 0 [(3, strHash [97])] 3 (strHash [97])) :
      Reach M 0 [97] ⟨upd (upd (upd (upd start.pc 3 .test) 3 .store) 3 .load) 3 .idle, [(3, strHash [97])], [(3, strHash [97])]⟩ :=
    (((Relation.ReflTransGen.refl.tail (.call _ 3 rfl)).tail (.test _ 3 0 (by simp) h1)).tail (.store _ 3 (by simp))).tail
      (.load _ 3 _ (by simp) h2)
  refine ⟨_, go Seq rfl rfl, go Weak (.inl rfl) (.inl ?_), ?_⟩
  · simp
  · simp [h]

end Verif.Conc.StrHash
