import Verif.Stream.Ends
/-!
# More fuel does not change the outcome
-/
set_option autoImplicit false
set_option linter.unusedVariables false
set_option linter.unusedSimpArgs false
namespace Verif.Stream
open Verif.Value (Str)

def Mono (f g : St → Ref → Out (St × Ev)) : Prop := ∀ s r x, f s r = .ok x → g s r = .ok x

theorem emitAll_mono {f g : St → Ref → Out (St × Ev)} (hfg : Mono f g) : ∀ (rs : List Ref) (s : St) (x : St × List Ev),
    emitAll f s rs = .ok x → emitAll g s rs = .ok x
  | [], s, x, hx => hx
  | r :: rs, s, x, hx => by
    simp only [emitAll] at hx ⊢
    cases h1 : f s r with
    | panic => simp [h1] at hx
    | deep => simp [h1] at hx
    | ok y =>
      cases h2 : emitAll f y.1 rs with
      | panic => simp [h1, h2] at hx
      | deep => simp [h1, h2] at hx
      | ok z =>
        simp only [h1, h2] at hx
        simp only [hfg _ _ _ h1, emitAll_mono hfg rs y.1 z h2]
        exact hx

theorem emitEntries_mono {f g f' g' : St → Ref → Out (St × Ev)} (hfg : Mono f g) (hfg' : Mono f' g') : ∀ (rs : List (Ref × Ref)) (s : St)
    (x : St × List Ev), emitEntries f f' s rs = .ok x → emitEntries g g' s rs = .ok x
  | [], s, x, hx => hx
  | (a, b) :: rs, s, x, hx => by
    simp only [emitEntries] at hx ⊢
    cases h1 : f s a with
    | panic => simp [h1] at hx
    | deep => simp [h1] at hx
    | ok y =>
      cases h3 : f' y.1 b with
      | panic => simp [h1, h3] at hx
      | deep => simp [h1, h3] at hx
      | ok w =>
        cases h2 : emitEntries f f' w.1 rs with
        | panic => simp [h1, h2, h3] at hx
        | deep => simp [h1, h2, h3] at hx
        | ok z =>
          simp only [h1, h2, h3] at hx
          simp only [hfg _ _ _ h1, hfg' _ _ _ h3, emitEntries_mono hfg hfg' rs w.1 z h2]
          exact hx

theorem Out.map_mono {α β : Type} {f : α → β} {x y : Out α} (hxy : ∀ a, x = .ok a → y = .ok a) {b : β} (hx : x.map f = .ok b) : y.map f = .ok b := by
  obtain ⟨a, h1, h2⟩ := Out.map_ok hx
  rw [hxy a h1]
  simp only [Out.map, h2]

theorem process_mono {lvl : Nat} {s : St} {k : Key} {f g : St → Out (St × Ev)} (hfg : ∀ s x, f s = .ok x → g s = .ok x) {x : St × Ev}
    (hx : process lvl s k f = .ok x) : process lvl s k g = .ok x := by
  unfold process at hx ⊢
  split at hx
  · rw [if_pos (by assumption)]; exact hfg _ _ hx
  · rename_i hl
    rw [if_neg hl]
    cases hk : lookup k s.values with
    | some n => rw [hk] at hx; exact hx
    | none => rw [hk] at hx; exact hfg _ _ hx

section
variable {o : Options} {k : Consumer} {h : Heap}

theorem emit_atom (m lvl : Nat) (s : St) (a : Atom) : emit o k h m lvl s (.atom a) = emit o k h 0 lvl s (.atom a) := by
  cases a <;> cases m <;> rfl

theorem emit_succ : ∀ (m lvl : Nat), Mono (emit o k h m lvl) (emit o k h (m + 1) lvl)
  | m, lvl, s, .atom a, x, hx => by rw [emit_atom] at hx ⊢; exact hx
  | 0, lvl, s, .obj p, x, hx => by simp [emit] at hx
  | m + 1, lvl, s, .obj p, x, hx => by
    have ih : ∀ l, Mono (emit o k h m l) (emit o k h (m + 1) l) := fun l => emit_succ m l
    unfold emit at hx ⊢
    cases hp : h p with
    | none => simp [hp] at hx
    | some y =>
      simp only [hp] at hx ⊢
      cases y with
      | arr es => exact process_mono (fun s x hx => Out.map_mono (fun a ha => emitAll_mono (ih lvl) es _ a ha) hx) hx
      | map es =>
        simp only at hx ⊢
        split at hx
        · rename_i hc
          rw [if_pos hc]
          cases hv : verbatim o.dialect es with
          | some i => rw [hv] at hx; exact hx
          | none =>
            rw [hv] at hx
            exact process_mono (fun s x hx => Out.map_mono (fun a ha => emitEntries_mono (ih _) (ih lvl) es _ a ha) hx) hx
        · rename_i hc
          rw [if_neg hc]
          split at hx
          · cases hx
          · rename_i hr
            rw [if_neg hr]
            exact process_mono (fun s x hx => Out.map_mono (fun a ha => emitEntries_mono (ih _) (ih lvl) es _ a ha) hx) hx
      | sens v =>
        refine process_mono (fun s x hx => ?_) hx
        split at hx
        · cases hx
        · rename_i hr
          rw [if_neg hr]
          exact Out.map_mono (fun a ha => ih lvl _ _ a ha) hx
      | bin bs => exact hx
      | time t => exact hx
      | typ t => exact hx

theorem emit_mono {m m' : Nat} (hm : m ≤ m') {lvl : Nat} {s : St} {r : Ref} {x : St × Ev} (hx : emit o k h m lvl s r = .ok x) :
    emit o k h m' lvl s r = .ok x := by
  obtain ⟨d, rfl⟩ := Nat.exists_eq_add_of_le hm
  induction d with
  | zero => exact hx
  | succ d ih => exact emit_succ (m + d) lvl s r x (ih (Nat.le_add_right _ _))

end
end Verif.Stream
