import Verif.Stream.Graph
/-!
# Streaming ends
-/
set_option autoImplicit false
set_option linter.unusedVariables false
set_option linter.unusedSimpArgs false
namespace Verif.Stream
open Verif.Value (Str)

/-- Every reference leads to an object. -/
def Closed (h : Heap) : Prop := ∀ p x q, h p = some x → Ref.obj q ∈ slots x → ∃ y, h q = some y

section
variable {o : Options} {k : Consumer} {h : Heap}

def Ok (o : Options) (k : Consumer) (h : Heap) (m lvl : Nat) (s : St) (r : Ref) : Prop :=
  ∃ s' ev, emit o k h m lvl s r = .ok (s', ev) ∧ ∀ e ∈ s.values, e ∈ s'.values

theorem okString (lvl : Nat) (s : St) (x : Str) : ∃ s' ev, emitString k lvl s x = .ok (s', ev) ∧ ∀ e ∈ s.values, e ∈ s'.values := by
  unfold emitString
  split
  · unfold process
    split
    · exact ⟨_, _, rfl, fun e he => he⟩
    · split
      · exact ⟨_, _, rfl, fun e he => he⟩
      · exact ⟨_, _, rfl, fun e he => List.mem_cons_of_mem _ he⟩
  · exact ⟨_, _, rfl, fun e he => he⟩

theorem okAtom (m lvl : Nat) (s : St) (a : Atom) : Ok o k h m lvl s (.atom a) := by
  cases a with
  | str x =>
    have : emit o k h m lvl s (.atom (.str x)) = emitString k lvl s x := by cases m <;> rfl
    unfold Ok; rw [this]; exact okString lvl s x
  | _ => cases m <;> exact ⟨_, _, rfl, fun e he => he⟩

theorem okSeq {m : Nat} : ∀ (rs : List (Nat × Ref)) (s : St),
    (∀ e ∈ rs, ∀ s0 : St, (∀ v ∈ s.values, v ∈ s0.values) → Ok o k h m e.1 s0 e.2) →
      ∃ s' evs, emitSeq o k h m s rs = .ok (s', evs) ∧ ∀ v ∈ s.values, v ∈ s'.values
  | [], s, _ => ⟨s, [], rfl, fun v hv => hv⟩
  | (l, r) :: rs, s, hr => by
    obtain ⟨s1, e1, h1, h2⟩ := hr (l, r) List.mem_cons_self s (fun v hv => hv)
    obtain ⟨s2, e2, h3, h4⟩ := okSeq rs s1 (fun e he s0 hs0 => hr e (List.mem_cons_of_mem _ he) s0 (fun v hv => hs0 v (h2 v hv)))
    exact ⟨s2, e1 :: e2, by simp only [emitSeq, h1, h3], fun v hv => h4 v (h2 v hv)⟩

/-- The parts of an object and the levels at which they are emitted -/
def parts (k : Consumer) (lvl : Nat) : Obj → List (Nat × Ref)
  | .arr es => es.map fun r => (lvl, r)
  | .map es => es.flatMap fun e => [(if plainMap k es then (if lvl = 1 then 0 else lvl) else 0, e.1), (lvl, e.2)]
  | .sens v => [(lvl, v)]
  | _ => []

theorem okBody {m lvl w : Nat} {x : Obj} (hs : Streamable o k h) (hw : h w = some x) (s : St)
    (hp : ∀ e ∈ parts k lvl x, ∀ s0 : St, (∀ v ∈ s.values, v ∈ s0.values) → Ok o k h m e.1 s0 e.2) :
    ∃ s' ev, body o k h m lvl x s = .ok (s', ev) ∧ ∀ v ∈ s.values, v ∈ s'.values := by
  have hrich : isRich k x = true → (∀ text, x ≠ .typ text) → o.rich = true := by
    intro h1 h2
    rcases hs.rich with h3 | h3
    · exact h3
    · obtain ⟨text, e⟩ := h3 w x hw h1; exact absurd e (h2 text)
  cases x with
  | arr es =>
    simp only [parts] at hp
    obtain ⟨s', evs, h1, h2⟩ := okSeq _ (s.inc 1) hp
    exact ⟨s', .arr evs, by simp only [body, emitAll_seq, h1]; rfl, h2⟩
  | map es =>
    cases hpl : plainMap k es with
    | true =>
      simp only [parts, hpl, if_true] at hp
      obtain ⟨s', evs, h1, h2⟩ := okSeq _ (s.inc 1) hp
      exact ⟨s', .map evs, by simp only [body, hpl, if_true, emitEntries_seq, h1]; rfl, h2⟩
    | false =>
      simp only [parts, hpl, Bool.false_eq_true, if_false] at hp
      obtain ⟨s', evs, h1, h2⟩ := okSeq _ (s.inc 5) hp
      exact ⟨s', _, by simp only [body, hpl, Bool.false_eq_true, if_false, emitEntries_seq, h1]; rfl, h2⟩
  | sens v =>
    obtain ⟨s', ev, h1, h2⟩ := hp (lvl, v) (by simp [parts]) (s.inc 4) (fun v hv => hv)
    have hr := hrich rfl (by intro _ e; cases e)
    exact ⟨s', _, by simp only [body, hr, Bool.not_true, Bool.false_eq_true, if_false, h1]; rfl, h2⟩
  | bin bs =>
    cases hb : k.binary with
    | true => exact ⟨s.inc 1, _, by simp only [body, hb, if_true]; rfl, fun v hv => hv⟩
    | false =>
      have hr := hrich (by simp [isRich, hb]) (by intro _ e; cases e)
      obtain ⟨s', ev, h1, h2⟩ := okString (k := k) lvl (s.inc 4) (Binary.text bs)
      exact ⟨s', _, by simp only [body, hb, hr, Bool.not_true, Bool.false_eq_true, if_false, h1]; rfl, h2⟩
  | time t =>
    cases hb : k.time with
    | true => exact ⟨s.inc 1, _, by simp only [body, hb, if_true]; rfl, fun v hv => hv⟩
    | false =>
      have hr := hrich (by simp [isRich, hb]) (by intro _ e; cases e)
      obtain ⟨s', ev, h1, h2⟩ := okString (k := k) lvl (s.inc 4) (o.timeText t)
      exact ⟨s', _, by simp only [body, hb, hr, Bool.not_true, Bool.false_eq_true, if_false, h1]; rfl, h2⟩
  | typ x =>
    cases hn : o.names with
    | none => exact ⟨s.inc 3, _, by simp only [body, hn]; rfl, fun v hv => hv⟩
    | some names =>
      cases hx : names x with
      | none => exact absurd hx (hs.named w x names hw hn)
      | some name =>
        obtain ⟨s1, e1, h1, h2⟩ := okString (k := k) lvl (s.inc 5) name
        obtain ⟨s2, e2, h3, h4⟩ := okString (k := k) lvl s1 x
        exact ⟨s2, _, by simp only [body, hn, hx, emitAll, h1, h3]; rfl, fun v hv => h4 v (h2 v hv)⟩

/-- Without de-duplication a finite value is emitted. -/
theorem ok_zero (hs : Streamable o k h) : ∀ (n m : Nat), n ≤ m → ∀ (r : Ref) (t : T), den h n r = some t → ∀ s, Ok o k h m 0 s r
  | 0, m, hm, .atom a, t, hd, s => okAtom m 0 s a
  | 0, m, hm, .obj p, t, hd, s => by simp [den] at hd
  | n + 1, m, hm, .atom a, t, hd, s => okAtom m 0 s a
  | n + 1, 0, hm, .obj p, t, hd, s => by omega
  | n + 1, m + 1, hm, .obj p, t, hd, s => by
    have ih := ok_zero hs n m (by omega)
    cases hw : h p with
    | none => simp [den, hw] at hd
    | some x =>
      simp only [den, hw] at hd
      unfold Ok
      rw [emit_obj hs m 0 s p hw]
      unfold process
      rw [if_pos rfl]
      refine okBody hs hw s ?_
      intro e he s0 hs0
      cases x with
      | arr es =>
        obtain ⟨r, hr, rfl⟩ := List.mem_map.mp he
        obtain ⟨ts, hts, _⟩ := Option.map_eq_some_iff.mp hd
        obtain ⟨t', ht'⟩ := denAll_mem hts r hr
        exact ih r t' ht' s0
      | map es =>
        obtain ⟨y, hy0, hy⟩ := List.mem_flatMap.mp he
        obtain ⟨ts, hts, _⟩ := Option.map_eq_some_iff.mp hd
        obtain ⟨⟨t1, ht1⟩, t2, ht2⟩ := denEntries_mem hts y hy0
        rcases List.mem_cons.mp hy with rfl | hy
        · have e0 : (if plainMap k es then (if (0 : Nat) = 1 then 0 else 0) else 0) = 0 := by simp
          simp only [e0]
          exact ih _ t1 ht1 s0
        · simp only [List.mem_singleton] at hy
          subst hy
          exact ih _ t2 ht2 s0
      | sens v =>
        simp only [parts, List.mem_singleton] at he
        subst he
        obtain ⟨t', ht', _⟩ := Option.map_eq_some_iff.mp hd
        exact ih _ t' ht' s0
      | bin bs => simp [parts] at he
      | time t => simp [parts] at he
      | typ x => simp [parts] at he

/-- How many objects have not been emitted -/
def left (N : Nat) (s : St) : Nat := (List.range N).countP fun p => (lookup (.obj p) s.values).isNone

theorem lookup_isSome {x : Key} {n : Nat} : ∀ {l : List (Key × Nat)}, (x, n) ∈ l → (lookup x l).isSome = true
  | [], hm => by simp at hm
  | (y, m) :: l, hm => by
    simp only [lookup]
    split
    · rfl
    · rename_i hne
      rcases List.mem_cons.mp hm with h1 | h1
      · cases h1; exact absurd rfl hne
      · exact lookup_isSome h1

theorem lookup_sub {s s' : St} (hv : ∀ v ∈ s.values, v ∈ s'.values) {x : Key} (hn : (lookup x s'.values).isNone = true) :
    (lookup x s.values).isNone = true := by
  cases hl : lookup x s.values with
  | none => rfl
  | some n =>
    have := lookup_isSome (hv _ (lookup_mem hl))
    rw [Option.isNone_iff_eq_none] at hn
    rw [hn] at this
    cases this

theorem left_le {N : Nat} {s s' : St} (hv : ∀ v ∈ s.values, v ∈ s'.values) : left N s' ≤ left N s :=
  List.countP_mono_left fun p _ hp => lookup_sub hv hp

theorem countP_lt {α : Type} {f g : α → Bool} : ∀ {l : List α}, (∀ x ∈ l, f x = true → g x = true) → ∀ w ∈ l, f w = false → g w = true →
    l.countP f < l.countP g
  | [], _, w, hw, _, _ => by simp at hw
  | x :: l, hfg, w, hw, h1, h2 => by
    simp only [List.countP_cons]
    have hle : l.countP f ≤ l.countP g := List.countP_mono_left fun y hy => hfg y (List.mem_cons_of_mem _ hy)
    rcases List.mem_cons.mp hw with rfl | hw
    · simp [h1, h2]; omega
    · have := countP_lt (fun y hy => hfg y (List.mem_cons_of_mem _ hy)) w hw h1 h2
      have hx := hfg x List.mem_cons_self
      cases hf : f x with
      | true => simp [hx hf]; exact this
      | false => cases hg : g x <;> simp <;> omega

theorem left_lt {N w : Nat} {s : St} (hw : w < N) (hn : lookup (.obj w) s.values = none) {n : Nat} :
    left N { s with values := (.obj w, n) :: s.values } < left N s := by
  refine countP_lt ?_ w (List.mem_range.mpr hw) ?_ ?_
  · intro p _ hp
    exact lookup_sub (s := s) (s' := { s with values := (.obj w, n) :: s.values }) (fun v hv => List.mem_cons_of_mem _ hv) hp
  · simp [lookup]
  · rw [hn]; rfl

/-- With de-duplication every graph is emitted. -/
theorem ok_dedup (hs : Streamable o k h) (hcl : Closed h) {N d : Nat} (hN : ∀ p x, h p = some x → p < N)
    (hkey : ∀ p es e, h p = some (.map es) → e ∈ es → ∃ t, den h d e.1 = some t) : ∀ (m lvl : Nat), lvl ≠ 0 → ∀ (s : St) (r : Ref),
      (∀ p, r = .obj p → ∃ x, h p = some x) → left N s + d < m → Ok o k h m lvl s r
  | m, lvl, hl, s, .atom a, hr, hm => okAtom m lvl s a
  | 0, lvl, hl, s, .obj w, hr, hm => by omega
  | m + 1, lvl, hl, s, .obj w, hr, hm => by
    obtain ⟨x, hw⟩ := hr w rfl
    unfold Ok
    rw [emit_obj hs m lvl s w hw]
    unfold process
    rw [if_neg hl]
    cases hlk : lookup (.obj w) s.values with
    | some n => exact ⟨_, _, rfl, fun v hv => hv⟩
    | none =>
      have hlt := left_lt (N := N) (hN w x hw) hlk (n := s.refIndex)
      obtain ⟨s', ev, h1, h2⟩ := okBody (m := m) (lvl := lvl) hs hw { s with values := (Key.obj w, s.refIndex) :: s.values } (by
        intro e he s0 hs0
        have hle := left_le (N := N) hs0
        have hval : ∀ v, v ∈ slots x → Ok o k h m lvl s0 v := fun v hv =>
          ok_dedup hs hcl hN hkey m lvl hl s0 v (fun p ep => hcl w x p hw (ep ▸ hv)) (by omega)
        cases x with
        | arr es =>
          obtain ⟨r, hr, rfl⟩ := List.mem_map.mp he
          exact hval r hr
        | map es =>
          obtain ⟨y, hy0, hy⟩ := List.mem_flatMap.mp he
          have hk1 : y.1 ∈ slots (.map es) := List.mem_flatMap.mpr ⟨y, hy0, by simp⟩
          have hk2 : y.2 ∈ slots (.map es) := List.mem_flatMap.mpr ⟨y, hy0, by simp⟩
          rcases List.mem_cons.mp hy with rfl | hy
          · obtain ⟨t, ht⟩ := hkey w es y hw hy0
            have hz : Ok o k h m 0 s0 y.1 := ok_zero hs d m (by omega) y.1 t ht s0
            dsimp only
            split
            · split
              · exact hz
              · exact hval _ hk1
            · exact hz
          · simp only [List.mem_singleton] at hy
            subst hy
            exact hval _ hk2
        | sens v =>
          simp only [parts, List.mem_singleton] at he
          subst he
          exact hval v (by simp [slots])
        | bin bs => simp [parts] at he
        | time t => simp [parts] at he
        | typ x => simp [parts] at he)
      exact ⟨s', ev, h1, fun v hv => h2 v (List.mem_cons_of_mem _ hv)⟩

end
end Verif.Stream
