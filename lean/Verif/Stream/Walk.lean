import Verif.Stream.Fuel
/-!
# References point backwards
-/
set_option autoImplicit false
set_option linter.unusedVariables false
set_option linter.unusedSimpArgs false
namespace Verif.Stream
open Verif.Value (Str)

mutual
/-- Walks over the calls in order, counting the items; `none` if a reference is not the number of an earlier item. -/
def walk (n : Nat) : Ev → Option Nat
  | .add _ => some (n + 1)
  | .addBin _ => some (n + 1)
  | .addTime _ => some (n + 1)
  | .ref i => if 0 ≤ i ∧ i < n then some n else none
  | .arr es => walkAll (n + 1) es
  | .map es => walkAll (n + 1) es
def walkAll (n : Nat) : List Ev → Option Nat
  | [] => some n
  | e :: es =>
    match walk n e with
    | none => none
    | some m => walkAll m es
end

section
variable {o : Options} {k : Consumer} {h : Heap}

def Tab (s : St) : Prop := ∀ e ∈ s.values, e.2 < s.refIndex

theorem Tab.inc {s : St} (ht : Tab s) (j : Nat) : Tab (s.inc j) := fun e he => Nat.lt_of_lt_of_le (ht e he) (Nat.le_add_right _ _)

def W (s s' : St) (ev : Ev) : Prop := Tab s' ∧ walk s.refIndex ev = some s'.refIndex ∧ s.refIndex ≤ s'.refIndex

theorem process_walk {lvl : Nat} {s s' : St} {x : Key} {f : St → Out (St × Ev)} {ev : Ev} (ht : Tab s)
    (hf : ∀ s1 : St, s1.refIndex = s.refIndex → (∀ e ∈ s1.values, e.2 < s.refIndex + 1) → f s1 = .ok (s', ev) → W s1 s' ev) (hp : process lvl s x f = .ok (s', ev)) :
    W s s' ev := by
  unfold process at hp
  split at hp
  · exact hf s rfl (fun e he => Nat.lt_succ_of_lt (ht e he)) hp
  · cases hk : lookup x s.values with
    | some n =>
      rw [hk] at hp
      cases hp
      have := ht _ (lookup_mem hk)
      refine ⟨ht, ?_, Nat.le_refl _⟩
      have h1 : (0 : Int) ≤ (n : Int) ∧ (n : Int) < (s.refIndex : Int) := by
        constructor
        · omega
        · have : n < s.refIndex := this
          omega
      simp only [walk]
      rw [if_pos h1]
    | none =>
      rw [hk] at hp
      have := hf { s with values := (x, s.refIndex) :: s.values } rfl (by
        intro e he
        rcases List.mem_cons.mp he with rfl | he
        · exact Nat.lt_succ_self _
        · exact Nat.lt_succ_of_lt (ht e he)) hp
      exact ⟨this.1, this.2.1, this.2.2⟩

theorem tab_of {s1 : St} {n : Nat} (hr : s1.refIndex = n) (ht : ∀ e ∈ s1.values, e.2 < n + 1) (j : Nat) : Tab (s1.inc (j + 1)) := by
  intro e he
  have := ht e he
  show e.2 < s1.refIndex + (j + 1)
  omega

theorem string_walk {lvl : Nat} {s s' : St} {x : Str} {ev : Ev} (ht : Tab s) (he : emitString k lvl s x = .ok (s', ev)) : W s s' ev := by
  have hadd : ∀ s1 : St, s1.refIndex = s.refIndex → (∀ e ∈ s1.values, e.2 < s.refIndex + 1) →
      (Out.ok (s1.inc 1, Ev.add (.str x)) : Out (St × Ev)) = .ok (s', ev) → W s1 s' ev := by
    intro s1 h1 h2 h3
    cases h3
    exact ⟨tab_of h1 h2 0, rfl, Nat.le_add_right _ _⟩
  unfold emitString at he
  split at he
  · exact process_walk ht (fun s1 h1 h2 h3 => hadd s1 h1 h2 h3) he
  · exact hadd s rfl (fun e he => Nat.lt_succ_of_lt (ht e he)) he

theorem seq_walk {m : Nat} (ih : ∀ lvl r s s' ev, Tab s → emit o k h m lvl s r = .ok (s', ev) → W s s' ev) : ∀ (rs : List (Nat × Ref)) (s s' : St)
    (evs : List Ev), Tab s → emitSeq o k h m s rs = .ok (s', evs) → Tab s' ∧ walkAll s.refIndex evs = some s'.refIndex ∧ s.refIndex ≤ s'.refIndex
  | [], s, s', evs, ht, he => by
    simp only [emitSeq] at he
    cases he
    exact ⟨ht, rfl, Nat.le_refl _⟩
  | (l, r) :: rs, s, s', evs, ht, he => by
    simp only [emitSeq] at he
    cases h1 : emit o k h m l s r with
    | panic => simp [h1] at he
    | deep => simp [h1] at he
    | ok y =>
      cases h2 : emitSeq o k h m y.1 rs with
      | panic => simp [h1, h2] at he
      | deep => simp [h1, h2] at he
      | ok z =>
        simp only [h1, h2] at he
        cases he
        obtain ⟨a1, a2, a3⟩ := ih l r s y.1 y.2 ht h1
        obtain ⟨b1, b2, b3⟩ := seq_walk ih rs y.1 z.1 z.2 a1 h2
        exact ⟨b1, by simp only [walkAll, a2, b2], Nat.le_trans a3 b3⟩

theorem walk_tagged {n n' : Nat} {d : Dialect} {name : Str} {v : Ev} (hv : walk (n + 4) v = some n') : walk n (tagged d name v) = some n' := by
  simp only [tagged, walk, walkAll, hv]

theorem emit_walk (hs : Streamable o k h) : ∀ (m lvl : Nat) (r : Ref) (s s' : St) (ev : Ev), Tab s → emit o k h m lvl s r = .ok (s', ev) → W s s' ev
  | m, lvl, .atom a, s, s', ev, ht, he => by
    have hadd : (Out.ok (s.inc 1, Ev.add a) : Out (St × Ev)) = .ok (s', ev) → W s s' ev := by
      intro he; cases he; exact ⟨ht.inc 1, by simp [walk, St.inc], Nat.le_add_right _ _⟩
    rw [emit_atom] at he
    cases a with
    | str x => exact string_walk ht he
    | _ => exact hadd he
  | 0, lvl, .obj p, s, s', ev, ht, he => by simp [emit] at he
  | m + 1, lvl, .obj w, s, s', ev, ht, he => by
    have ih := emit_walk hs m
    cases hw : h w with
    | none => simp [emit, hw] at he
    | some x =>
      rw [emit_obj hs m lvl s w hw] at he
      refine process_walk ht ?_ he
      intro s1 h1 h2 h3
      cases x with
      | arr es =>
        simp only [body, emitAll_seq] at h3
        obtain ⟨y, h4, h5⟩ := Out.map_ok h3
        cases h5
        obtain ⟨a1, a2, a3⟩ := seq_walk ih _ _ y.1 y.2 (tab_of h1 h2 0) h4
        exact ⟨a1, by simp only [walk]; exact a2, Nat.le_trans (Nat.le_add_right _ _) a3⟩
      | map es =>
        cases hpl : plainMap k es with
        | true =>
          simp only [body, hpl, if_true, emitEntries_seq] at h3
          obtain ⟨y, h4, h5⟩ := Out.map_ok h3
          cases h5
          obtain ⟨a1, a2, a3⟩ := seq_walk ih _ _ y.1 y.2 (tab_of h1 h2 0) h4
          exact ⟨a1, by simp only [walk]; exact a2, Nat.le_trans (Nat.le_add_right _ _) a3⟩
        | false =>
          simp only [body, hpl, Bool.false_eq_true, if_false, emitEntries_seq] at h3
          obtain ⟨y, h4, h5⟩ := Out.map_ok h3
          cases h5
          obtain ⟨a1, a2, a3⟩ := seq_walk ih _ _ y.1 y.2 (tab_of h1 h2 4) h4
          exact ⟨a1, walk_tagged (by simp only [walk]; exact a2), Nat.le_trans (Nat.le_add_right _ _) a3⟩
      | sens v =>
        simp only [body] at h3
        split at h3
        · cases h3
        · obtain ⟨y, h4, h5⟩ := Out.map_ok h3
          cases h5
          obtain ⟨a1, a2, a3⟩ := ih lvl v _ y.1 y.2 (tab_of h1 h2 3) h4
          exact ⟨a1, walk_tagged a2, Nat.le_trans (Nat.le_add_right _ _) a3⟩
      | bin bs =>
        simp only [body] at h3
        split at h3
        · cases h3; exact ⟨tab_of h1 h2 0, rfl, Nat.le_add_right _ _⟩
        · split at h3
          · cases h3
          · obtain ⟨y, h4, h5⟩ := Out.map_ok h3
            cases h5
            obtain ⟨a1, a2, a3⟩ := string_walk (tab_of h1 h2 3) h4
            exact ⟨a1, walk_tagged a2, Nat.le_trans (Nat.le_add_right _ _) a3⟩
      | time t =>
        simp only [body] at h3
        split at h3
        · cases h3; exact ⟨tab_of h1 h2 0, rfl, Nat.le_add_right _ _⟩
        · split at h3
          · cases h3
          · obtain ⟨y, h4, h5⟩ := Out.map_ok h3
            cases h5
            obtain ⟨a1, a2, a3⟩ := string_walk (tab_of h1 h2 3) h4
            exact ⟨a1, walk_tagged a2, Nat.le_trans (Nat.le_add_right _ _) a3⟩
      | typ x =>
        cases hn : o.names with
        | none =>
          simp only [body, hn] at h3
          cases h3
          exact ⟨tab_of h1 h2 2, rfl, Nat.le_add_right _ _⟩
        | some names =>
          cases hx : names x with
          | none => exact absurd hx (hs.named w x names hw hn)
          | some name =>
            simp only [body, hn, hx] at h3
            obtain ⟨y, h4, h5⟩ := Out.map_ok h3
            cases h5
            simp only [emitAll] at h4
            cases e1 : emitString k lvl (s1.inc 5) name with
            | panic => simp [e1] at h4
            | deep => simp [e1] at h4
            | ok y1 =>
              cases e2 : emitString k lvl y1.1 x with
              | panic => simp [e1, e2] at h4
              | deep => simp [e1, e2] at h4
              | ok y2 =>
                simp only [e1, e2] at h4
                cases h4
                obtain ⟨a1, a2, a3⟩ := string_walk (tab_of h1 h2 4) e1
                obtain ⟨b1, b2, b3⟩ := string_walk a1 e2
                refine ⟨b1, walk_tagged ?_, Nat.le_trans (Nat.le_add_right _ _) (Nat.le_trans a3 b3)⟩
                have a2' : walk (s1.refIndex + 4 + 1) y1.2 = some y1.1.refIndex := a2
                simp only [walk, walkAll, a2', b2]

end
end Verif.Stream
