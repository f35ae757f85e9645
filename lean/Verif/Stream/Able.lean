import Verif.Stream.Main
/-!
# A consumer is told what it can do
-/
set_option autoImplicit false
set_option linter.unusedVariables false
set_option linter.unusedSimpArgs false
namespace Verif.Stream
open Verif.Value (Str)

/-! ## Specification -/

/-- Every other call, beginning with the first, adds a string. -/
def StrKeys : List Ev → Prop
  | [] => True
  | [.add (.str _)] => True
  | .add (.str _) :: _ :: r => StrKeys r
  | _ => False

mutual
/-- The calls are within what the consumer says it can do. -/
def Able (c : Consumer) : Ev → Prop
  | .add _ => True
  | .addBin _ => c.binary = true
  | .addTime _ => c.time = true
  | .ref _ => True
  | .arr es => AbleAll c es
  | .map es => (c.complexKeys = true ∨ StrKeys es) ∧ AbleAll c es
def AbleAll (c : Consumer) : List Ev → Prop
  | [] => True
  | e :: es => Able c e ∧ AbleAll c es
end

mutual
/-- There are no references among the calls. -/
def NoRefs : Ev → Prop
  | .ref _ => False
  | .arr es => NoRefsAll es
  | .map es => NoRefsAll es
  | _ => True
def NoRefsAll : List Ev → Prop
  | [] => True
  | e :: es => NoRefs e ∧ NoRefsAll es
end

/-- The objects that can be reached from a reference -/
inductive Reach (h : Heap) (r : Ref) : Nat → Prop
  | root (p : Nat) (e : r = .obj p) : Reach h r p
  | step (p q : Nat) (x : Obj) (hp : Reach h r p) (hx : h p = some x) (hq : Ref.obj q ∈ slots x) : Reach h r q

/-! ## Lemmas -/

section
variable {o : Options} {c : Consumer} {h : Heap}

theorem map_ok_iff {α β : Type} {f : α → β} {x : Out α} {b : β} : x.map f = .ok b ↔ ∃ a, x = .ok a ∧ f a = b := by
  cases x <;> simp [Out.map]

theorem process_ok {lvl : Nat} {s s' : St} {x : Key} {f : St → Out (St × Ev)} {ev : Ev} (hp : process lvl s x f = .ok (s', ev)) :
    (lvl ≠ 0 ∧ (∃ n, lookup x s.values = some n) ∧ s' = s ∧ ∃ n, ev = .ref n) ∨
    (lvl = 0 ∧ f s = .ok (s', ev)) ∨ (lvl ≠ 0 ∧ f { s with values := (x, s.refIndex) :: s.values } = .ok (s', ev)) := by
  unfold process at hp
  split at hp
  · exact .inr (.inl ⟨by assumption, hp⟩)
  · cases hk : lookup x s.values with
    | some n => rw [hk] at hp; cases hp; exact .inl ⟨by assumption, ⟨n, rfl⟩, rfl, _, rfl⟩
    | none => rw [hk] at hp; exact .inr (.inr ⟨by assumption, hp⟩)

theorem string_able {lvl : Nat} {s s' : St} {x : Str} {ev : Ev} (he : emitString c lvl s x = .ok (s', ev)) : Able c ev := by
  unfold emitString at he
  split at he
  · rcases process_ok he with ⟨-, -, -, n, rfl⟩ | ⟨-, h2⟩ | ⟨-, h2⟩
    · trivial
    · cases h2; trivial
    · cases h2; trivial
  · cases he; trivial

theorem all_able {f : St → Ref → Out (St × Ev)} (hf : ∀ s r s' e, f s r = .ok (s', e) → Able c e) :
    ∀ (rs : List Ref) (s s' : St) (es : List Ev), emitAll f s rs = .ok (s', es) → AbleAll c es
  | [], s, s', es, hh => by cases hh; trivial
  | r :: rs, s, s', es, hh => by
    unfold emitAll at hh
    split at hh
    · cases hh
    · cases hh
    · rename_i s1 e h1
      split at hh
      · cases hh
      · cases hh
      · rename_i s2 es' h2
        cases hh
        exact ⟨hf _ _ _ _ h1, all_able hf rs _ _ _ h2⟩

theorem entries_able {f g : St → Ref → Out (St × Ev)} (hf : ∀ s r s' e, f s r = .ok (s', e) → Able c e) (hg : ∀ s r s' e, g s r = .ok (s', e) → Able c e) :
    ∀ (rs : List (Ref × Ref)) (s s' : St) (es : List Ev), emitEntries f g s rs = .ok (s', es) → AbleAll c es
  | [], s, s', es, hh => by cases hh; trivial
  | (k, v) :: rs, s, s', es, hh => by
    unfold emitEntries at hh
    split at hh
    · cases hh
    · cases hh
    · rename_i s1 e h1
      split at hh
      · cases hh
      · cases hh
      · rename_i s2 e' h2
        split at hh
        · cases hh
        · cases hh
        · rename_i s3 es' h3
          cases hh
          exact ⟨hf _ _ _ _ h1, hg _ _ _ _ h2, entries_able hf hg rs _ _ _ h3⟩

theorem entries_keys {f g : St → Ref → Out (St × Ev)} (hf : ∀ s x s' e, f s (.atom (.str x)) = .ok (s', e) → e = .add (.str x)) :
    ∀ (rs : List (Ref × Ref)) (s s' : St) (es : List Ev), stringKeys rs = true → emitEntries f g s rs = .ok (s', es) → StrKeys es
  | [], s, s', es, hs, hh => by cases hh; trivial
  | (k, v) :: rs, s, s', es, hs, hh => by
    unfold emitEntries at hh
    simp only [stringKeys, List.all_cons, Bool.and_eq_true] at hs
    split at hh
    · cases hh
    · cases hh
    · rename_i s1 e h1
      split at hh
      · cases hh
      · cases hh
      · rename_i s2 e' h2
        split at hh
        · cases hh
        · cases hh
        · rename_i s3 es' h3
          cases hh
          match k, hs.1 with
          | .atom (.str x), _ =>
            have := hf _ _ _ _ h1
            subst this
            simp only [StrKeys]
            exact entries_keys hf rs _ _ _ hs.2 h3

theorem emit_str_key {n : Nat} {s s' : St} {x : Str} {e : Ev} (he : emit o c h n 0 s (.atom (.str x)) = .ok (s', e)) : e = .add (.str x) := by
  have he : emitString c 0 s x = .ok (s', e) := by cases n <;> exact he
  unfold emitString process at he
  split at he
  · cases he; rfl
  · cases he; rfl

theorem tagged_able {d : Dialect} {name : Str} {e : Ev} (he : Able c e) : Able c (tagged d name e) := by
  refine ⟨.inr ?_, trivial, trivial, trivial, he, trivial⟩
  trivial

/-- What `process` tells is a reference or what the function tells. -/
theorem process_able {lvl : Nat} {s s' : St} {x : Key} {f : St → Out (St × Ev)} {ev : Ev} (hf : ∀ s, f s = .ok (s', ev) → Able c ev)
    (hp : process lvl s x f = .ok (s', ev)) : Able c ev := by
  rcases process_ok hp with ⟨-, -, -, n, rfl⟩ | ⟨-, h2⟩ | ⟨-, h2⟩
  · trivial
  · exact hf _ h2
  · exact hf _ h2

theorem emit_able : ∀ (n lvl : Nat) (s : St) (r : Ref) (s' : St) (e : Ev), (c.complexKeys = true ∨ lvl ≤ 1) → emit o c h n lvl s r = .ok (s', e) →
    Able c e := by
  intro n
  induction n with
  | zero =>
    intro lvl s r s' e hl he
    match r with
    | .atom (.str x) => exact string_able he
    | .atom .nil => cases he; trivial
    | .atom (.bool _) => cases he; trivial
    | .atom (.int _) => cases he; trivial
    | .atom (.float _) => cases he; trivial
    | .obj p => cases he
  | succ n ih =>
    intro lvl s r s' e hl he
    match r with
    | .atom (.str x) => exact string_able he
    | .atom .nil => cases he; trivial
    | .atom (.bool _) => cases he; trivial
    | .atom (.int _) => cases he; trivial
    | .atom (.float _) => cases he; trivial
    | .obj p =>
      have ih0 : ∀ s r s' e, emit o c h n 0 s r = .ok (s', e) → Able c e := fun s r s' e => ih 0 s r s' e (.inr (by omega))
      have ihl : ∀ s r s' e, emit o c h n lvl s r = .ok (s', e) → Able c e := fun s r s' e => ih lvl s r s' e hl
      have ihk : ∀ s r s' e, emit o c h n (if lvl = 1 then 0 else lvl) s r = .ok (s', e) → Able c e := by
        intro s r s' e
        split
        · exact ih0 s r s' e
        · exact ihl s r s' e
      rw [emit.eq_def] at he
      dsimp only at he
      split at he
      · cases he
      · refine process_able (fun s he => ?_) he
        obtain ⟨x, hx, hy⟩ := map_ok_iff.mp he
        cases hy
        exact all_able ihl _ _ _ _ hx
      · split at he
        · rename_i es _ hck
          split at he
          · cases he; trivial
          · refine process_able (fun s he => ?_) he
            obtain ⟨x, hx, hy⟩ := map_ok_iff.mp he
            cases hy
            refine ⟨?_, entries_able ihk ihl _ _ _ _ hx⟩
            cases hc : c.complexKeys with
            | true => exact .inl rfl
            | false =>
              rw [hc] at hck hl
              have hl : lvl ≤ 1 := hl.resolve_left (by simp)
              have h0 : (if lvl = 1 then 0 else lvl) = 0 := by split <;> omega
              rw [h0] at hx
              exact .inr (entries_keys (fun s x s' e => emit_str_key) _ _ _ _ hck hx)
        · split at he
          · cases he
          · refine process_able (fun s he => ?_) he
            obtain ⟨x, hx, hy⟩ := map_ok_iff.mp he
            cases hy
            exact tagged_able (show Able c (.arr _) from entries_able ih0 ihl _ _ _ _ hx)
      · refine process_able (fun s he => ?_) he
        split at he
        · cases he
        · obtain ⟨x, hx, hy⟩ := map_ok_iff.mp he
          cases hy
          exact tagged_able (ihl _ _ _ _ hx)
      · refine process_able (fun s he => ?_) he
        split at he
        · cases he; assumption
        · split at he
          · cases he
          · obtain ⟨x, hx, hy⟩ := map_ok_iff.mp he
            cases hy
            exact tagged_able (string_able hx)
      · refine process_able (fun s he => ?_) he
        split at he
        · cases he; assumption
        · split at he
          · cases he
          · obtain ⟨x, hx, hy⟩ := map_ok_iff.mp he
            cases hy
            exact tagged_able (string_able hx)
      · refine process_able (fun s he => ?_) he
        split at he
        · cases he
          exact ⟨.inr trivial, trivial, trivial, trivial⟩
        · split at he
          · cases he
            exact ⟨.inr trivial, trivial, trivial⟩
          · obtain ⟨x, hx, hy⟩ := map_ok_iff.mp he
            cases hy
            refine tagged_able (show Able c (.arr _) from all_able (fun s r s' e hh => ?_) _ _ _ _ hx)
            split at hh
            · exact string_able hh
            · cases hh
end
end Verif.Stream
