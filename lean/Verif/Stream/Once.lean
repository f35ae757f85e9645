import Verif.Stream.Model
/-!
# Strings that are long enough are sent once: lemmas for C46
-/
set_option autoImplicit false
set_option linter.unusedVariables false
set_option linter.unusedSimpArgs false
namespace Verif.Stream
open Verif.Value (Str)

mutual
/-- How many times the string is sent -/
def sent (x : Str) : Ev → Nat
  | .add (.str y) => if y = x then 1 else 0
  | .arr es => sentAll x es
  | .map es => sentAll x es
  | _ => 0
def sentAll (x : Str) : List Ev → Nat
  | [] => 0
  | e :: es => sent x e + sentAll x es
end

/-- Has the string been seen? -/
def known (x : Str) (s : St) : Nat := if (lookup (.str x) s.values).isSome then 1 else 0

variable {x : Str} {c : Consumer} {o : Options} {h : Heap}

def Counts (x : Str) (f : St → Out (St × Ev)) : Prop := ∀ s s' e, f s = .ok (s', e) → sent x e + known x s = known x s'

@[simp] theorem known_inc (s : St) (n : Nat) : known x (s.inc n) = known x s := rfl

theorem known_le (s : St) : known x s ≤ 1 := by unfold known; split <;> omega

theorem process_obj {lvl p : Nat} {f : St → Out (St × Ev)} (hf : Counts x f) : Counts x fun s => process lvl s (.obj p) f := by
  intro s s' e h
  simp only [process] at h
  split at h
  · exact hf _ _ _ h
  · split at h
    · cases h; simp [sent]
    · have := hf _ _ _ h
      simpa [known, lookup] using this

theorem emitString_counts {lvl : Nat} (hl : lvl ≠ 0) (hx : c.threshold ≤ x.length) (y : Str) : Counts x fun s => emitString c lvl s y := by
  intro s s' e h
  simp only [emitString, process, hl, if_false] at h
  by_cases hy : y = x
  · subst hy
    rw [if_pos hx] at h
    cases hk : lookup (.str y) s.values with
    | some n => rw [hk] at h; cases h; simp [sent]
    | none => rw [hk] at h; cases h; simp [sent, known, lookup, hk, St.inc]
  · split at h
    · split at h
      · cases h; simp [sent]
      · cases h
        have : Key.str x ≠ Key.str y := fun h => hy (by cases h; rfl)
        simp [sent, hy, known, lookup, this, St.inc]
    · cases h; simp [sent, hy]

theorem map_counts {f : St → Out (St × Ev)} {g : Ev → Ev} (hf : Counts x f) (hg : ∀ e, sent x (g e) = sent x e) :
    Counts x fun s => (f s).map fun y => (y.1, g y.2) := by
  intro s s' e h
  dsimp only at h
  cases hr : f s with
  | panic => rw [hr] at h; cases h
  | deep => rw [hr] at h; cases h
  | ok y => obtain ⟨s1, e1⟩ := y; rw [hr] at h; cases h; rw [hg]; exact hf _ _ _ hr

theorem emitAll_counts {f : St → Ref → Out (St × Ev)} : ∀ {rs : List Ref}, (∀ r ∈ rs, Counts x fun s => f s r) →
    ∀ s s' es, emitAll f s rs = .ok (s', es) → sentAll x es + known x s = known x s'
  | [], _, s, s', es, h => by cases h; simp [sentAll]
  | r :: rs, hf, s, s', es, h => by
    rw [emitAll] at h
    split at h <;> try cases h
    rename_i s1 e1 h1
    split at h <;> cases h
    rename_i es1 h2
    have e1' := hf r (by simp) _ _ _ h1
    have e2' := emitAll_counts (fun r hr => hf r (by simp [hr])) _ _ _ h2
    rw [sentAll]; omega

theorem emitEntries_counts {key val : St → Ref → Out (St × Ev)} : ∀ {rs : List (Ref × Ref)}, (∀ r ∈ rs, Counts x fun s => key s r.1) →
    (∀ r ∈ rs, Counts x fun s => val s r.2) → ∀ s s' es, emitEntries key val s rs = .ok (s', es) → sentAll x es + known x s = known x s'
  | [], _, _, s, s', es, h => by cases h; simp [sentAll]
  | (k, v) :: rs, hk, hv, s, s', es, h => by
    rw [emitEntries] at h
    split at h <;> try cases h
    rename_i s1 e1 h1
    split at h <;> try cases h
    rename_i s2 e2 h2
    split at h <;> cases h
    rename_i es3 h3
    have e1' := hk (k, v) (by simp) _ _ _ h1
    have e2' := hv (k, v) (by simp) _ _ _ h2
    have e3' := emitEntries_counts (fun r hr => hk r (by simp [hr])) (fun r hr => hv r (by simp [hr])) _ _ _ h3
    rw [sentAll, sentAll]; omega

theorem out_map {α β : Type} {f : α → β} {r : Out α} {b : β} (h : r.map f = .ok b) : ∃ a, r = .ok a ∧ b = f a := by
  cases r <;> cases h; exact ⟨_, rfl, rfl⟩

/-- The string is none of those that the dialect adds. -/
def Dialect.Without (d : Dialect) (x : Str) : Prop :=
  d.typeKey ≠ x ∧ d.valueKey ≠ x ∧ d.map ≠ x ∧ d.sensitive ≠ x ∧ d.binary ≠ x ∧ d.time ≠ x ∧ d.alias ≠ x

/-- The string is not a key of a map whose keys are sent every time, nor the text of a type that is sent every time. -/
def Reused (x : Str) (o : Options) (c : Consumer) (h : Heap) : Prop :=
  (∀ p es, h p = some (.map es) → (c.complexKeys = true ∧ 2 ≤ o.dedup) ∨ (stringKeys es = true ∧ ∀ e ∈ es, e.1 ≠ .atom (.str x))) ∧
  ∀ p, h p = some (.typ x) → o.names ≠ none

theorem sent_tagged (hd : o.dialect.Without x) {name : Str} (hn : name ≠ x) (e : Ev) : sent x (tagged o.dialect name e) = sent x e := by
  simp [tagged, sent, sentAll, hd.1, hd.2.1, hn]

theorem emit_counts (hx : c.threshold ≤ x.length) (hd : o.dialect.Without x) (hr : Reused x o c h) (hl : level o c ≠ 0) :
    ∀ (n : Nat) (r : Ref), Counts x fun s => emit o c h n (level o c) s r
  | n, .atom (.str y) => by
    have : ∀ s, emit o c h n (level o c) s (.atom (.str y)) = emitString c (level o c) s y := by intro s; cases n <;> simp only [emit]
    simp only [this]
    exact emitString_counts hl hx _
  | n, .atom .nil | n, .atom (.bool _) | n, .atom (.int _) | n, .atom (.float _) => by
    intro s s' e h
    cases n <;> simp only [emit] at h <;> (cases h; simp [sent])
  | 0, .obj p => by intro s s' e h; simp [emit] at h
  | n + 1, .obj p => by
    have ih := emit_counts hx hd hr hl n
    simp only [emit]
    cases hp : h p with
    | none => intro s s' e h; cases h
    | some ob =>
      cases ob with
      | arr es =>
        refine process_obj fun s s' e he => ?_
        cases hq : emitAll (emit o c h n (level o c)) (s.inc 1) es with
        | panic => rw [hq] at he; cases he
        | deep => rw [hq] at he; cases he
        | ok y =>
          obtain ⟨s1, e1⟩ := y
          rw [hq] at he; cases he
          rw [sent, ← known_inc s 1]
          exact emitAll_counts (fun r _ => ih r) _ _ _ hq
      | map es =>
        have hcs := hr.1 p es hp
        have hkey : c.complexKeys || stringKeys es := by rcases hcs with h | h <;> simp [h.1]
        dsimp only
        simp only [hkey, if_true]
        split
        · intro s s' e he; cases he; simp [sent]
        · refine process_obj fun s s' e he => ?_
          cases hq : emitEntries (emit o c h n (if level o c = 1 then 0 else level o c)) (emit o c h n (level o c)) (s.inc 1) es with
          | panic => rw [hq] at he; cases he
          | deep => rw [hq] at he; cases he
          | ok y =>
            obtain ⟨s1, e1⟩ := y
            rw [hq] at he; cases he
            rw [sent, ← known_inc s 1]
            refine emitEntries_counts ?_ (fun r _ => ih r.2) _ _ _ hq
            intro r hm
            rcases hcs with ⟨h1, h2⟩ | ⟨h1, h2⟩
            · have : level o c ≠ 1 := by simp [level, h1]; omega
              rw [if_neg this]; exact ih r.1
            · split
              · obtain ⟨k, hk⟩ : ∃ k, r.1 = .atom (.str k) := by
                  have := List.all_eq_true.1 h1 r hm
                  split at this
                  · exact ⟨_, by assumption⟩
                  · cases this
                have hne : k ≠ x := fun hc => h2 r hm (by rw [hk, hc])
                rw [hk]
                intro s s' e he
                cases n <;> simp only [emit, emitString, process, if_true, ite_self] at he <;> (cases he; simp [sent, hne])
              · exact ih r.1
      | sens v =>
        refine process_obj fun s s' e he => ?_
        split at he
        · cases he
        · exact map_counts (x := x) (ih v) (sent_tagged hd hd.2.2.2.1) (s.inc 4) _ _ he
      | bin bs =>
        refine process_obj fun s s' e he => ?_
        split at he
        · cases he; simp [sent]
        · split at he
          · cases he
          · exact map_counts (x := x) (emitString_counts hl hx _) (sent_tagged hd hd.2.2.2.2.1) (s.inc 4) _ _ he
      | time t =>
        refine process_obj fun s s' e he => ?_
        split at he
        · cases he; simp [sent]
        · split at he
          · cases he
          · exact map_counts (x := x) (emitString_counts hl hx _) (sent_tagged hd hd.2.2.2.2.2.1) (s.inc 4) _ _ he
      | typ text =>
        refine process_obj fun s s' e he => ?_
        split at he
        · rename_i hnn
          cases he
          have : text ≠ x := fun hc => hr.2 p (hc ▸ hp) hnn
          simp [sent, sentAll, hd.1, this]
        · split at he
          · cases he; simp [sent, sentAll, hd.1]
          · rename_i name _
            obtain ⟨⟨s1, e1⟩, hq, he⟩ := out_map he
            cases he
            rw [sent_tagged hd hd.2.2.2.2.2.2, sent, ← known_inc s 5]
            refine emitAll_counts (fun r hm => ?_) _ _ _ hq
            simp only [List.mem_cons, List.not_mem_nil, or_false] at hm
            rcases hm with rfl | rfl <;> exact emitString_counts hl hx _

theorem stream_once (hx : c.threshold ≤ x.length) (hd : o.dialect.Without x) (hr : Reused x o c h) (hl : o.dedup ≠ 0) {fuel : Nat} {r : Ref} {e : Ev}
    (he : stream o c h fuel r = .ok e) : sent x e ≤ 1 := by
  have hl' : level o c ≠ 0 := by unfold level; split <;> omega
  unfold stream at he
  cases hq : emit o c h fuel (level o c) { values := [], refIndex := 0 } r with
  | panic => rw [hq] at he; cases he
  | deep => rw [hq] at he; cases he
  | ok y =>
    obtain ⟨s1, e1⟩ := y
    rw [hq] at he; cases he
    have := emit_counts hx hd hr hl' fuel r _ _ _ hq
    have := known_le (x := x) s1
    dsimp only
    omega

end Verif.Stream
