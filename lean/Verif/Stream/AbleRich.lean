import Verif.Stream.Able
/-!
# Without rich data, and without de-duplication
-/
set_option autoImplicit false
set_option linter.unusedVariables false
set_option linter.unusedSimpArgs false
namespace Verif.Stream
open Verif.Value (Str)

section
variable {o : Options} {c : Consumer} {h : Heap}

/-! ## No references -/

theorem string_norefs {s s' : St} {x : Str} {ev : Ev} (he : emitString c 0 s x = .ok (s', ev)) : NoRefs ev := by
  unfold emitString process at he
  split at he <;> (cases he; trivial)

theorem all_norefs {f : St → Ref → Out (St × Ev)} (hf : ∀ s r s' e, f s r = .ok (s', e) → NoRefs e) :
    ∀ (rs : List Ref) (s s' : St) (es : List Ev), emitAll f s rs = .ok (s', es) → NoRefsAll es
  | [], s, s', es, hh => by cases hh; trivial
  | r :: rs, s, s', es, hh => by
    unfold emitAll at hh
    split at hh
    · cases hh
    · cases hh
    · rename_i s1 e h1
      split at hh
      · cases hh
      · cases hh
      · rename_i s2 es' h2
        cases hh
        exact ⟨hf _ _ _ _ h1, all_norefs hf rs _ _ _ h2⟩

theorem entries_norefs {f g : St → Ref → Out (St × Ev)} (hf : ∀ s r s' e, f s r = .ok (s', e) → NoRefs e) (hg : ∀ s r s' e, g s r = .ok (s', e) → NoRefs e) :
    ∀ (rs : List (Ref × Ref)) (s s' : St) (es : List Ev), emitEntries f g s rs = .ok (s', es) → NoRefsAll es
  | [], s, s', es, hh => by cases hh; trivial
  | (k, v) :: rs, s, s', es, hh => by
    unfold emitEntries at hh
    split at hh
    · cases hh
    · cases hh
    · rename_i s1 e h1
      split at hh
      · cases hh
      · cases hh
      · rename_i s2 e' h2
        split at hh
        · cases hh
        · cases hh
        · rename_i s3 es' h3
          cases hh
          exact ⟨hf _ _ _ _ h1, hg _ _ _ _ h2, entries_norefs hf hg rs _ _ _ h3⟩

theorem emit_norefs (hv : ∀ p es, h p = some (.map es) → plainMap c es = true → verbatim o.dialect es = none) :
    ∀ (n : Nat) (s : St) (r : Ref) (s' : St) (e : Ev), emit o c h n 0 s r = .ok (s', e) → NoRefs e := by
  intro n
  induction n with
  | zero =>
    intro s r s' e he
    match r with
    | .atom (.str x) => exact string_norefs he
    | .atom .nil => cases he; trivial
    | .atom (.bool _) => cases he; trivial
    | .atom (.int _) => cases he; trivial
    | .atom (.float _) => cases he; trivial
    | .obj p => cases he
  | succ n ih =>
    intro s r s' e he
    match r with
    | .atom (.str x) => exact string_norefs he
    | .atom .nil => cases he; trivial
    | .atom (.bool _) => cases he; trivial
    | .atom (.int _) => cases he; trivial
    | .atom (.float _) => cases he; trivial
    | .obj p =>
      rw [emit.eq_def] at he
      dsimp only at he
      split at he
      · cases he
      · obtain ⟨x, hx, hy⟩ := map_ok_iff.mp he
        cases hy
        exact all_norefs ih _ _ _ _ hx
      · rename_i es hes
        split at he
        · rename_i hck
          rw [hv p es hes hck] at he
          obtain ⟨x, hx, hy⟩ := map_ok_iff.mp he
          cases hy
          exact entries_norefs ih ih _ _ _ _ hx
        · split at he
          · cases he
          · obtain ⟨x, hx, hy⟩ := map_ok_iff.mp he
            cases hy
            exact ⟨trivial, trivial, trivial, show NoRefsAll _ from entries_norefs ih ih _ _ _ _ hx, trivial⟩
      · simp only [process, if_true] at he
        split at he
        · cases he
        · obtain ⟨x, hx, hy⟩ := map_ok_iff.mp he
          cases hy
          exact ⟨trivial, trivial, trivial, ih _ _ _ _ hx, trivial⟩
      · simp only [process, if_true] at he
        split at he
        · cases he; trivial
        · split at he
          · cases he
          · obtain ⟨x, hx, hy⟩ := map_ok_iff.mp he
            cases hy
            exact ⟨trivial, trivial, trivial, string_norefs hx, trivial⟩
      · simp only [process, if_true] at he
        split at he
        · cases he; trivial
        · split at he
          · cases he
          · obtain ⟨x, hx, hy⟩ := map_ok_iff.mp he
            cases hy
            exact ⟨trivial, trivial, trivial, string_norefs hx, trivial⟩
      · simp only [process, if_true] at he
        split at he
        · cases he
          exact ⟨trivial, trivial, trivial⟩
        · split at he
          · cases he
            exact ⟨trivial, trivial⟩
          · obtain ⟨x, hx, hy⟩ := map_ok_iff.mp he
            cases hy
            refine ⟨trivial, trivial, trivial, show NoRefsAll _ from all_norefs (fun s r s' e hh => ?_) _ _ _ _ hx, trivial⟩
            split at hh
            · exact string_norefs hh
            · cases hh

/-! ## No rich data -/

/-- Data, or a type -/
def DataObj (c : Consumer) (x : Obj) : Prop := isRich c x = false ∨ ∃ t, x = .typ t

def GoodFrom (c : Consumer) (h : Heap) (r : Ref) : Prop := ∀ q, Reach h r q → ∃ x, h q = some x ∧ DataObj c x

theorem reach_cases {p q : Nat} {x : Obj} (hx : h p = some x) (hr : Reach h (.obj p) q) : q = p ∨ ∃ r ∈ slots x, Reach h r q := by
  induction hr with
  | root p' e => cases e; exact .inl rfl
  | step p' q' y hp hy hq ih =>
    rcases ih with rfl | ⟨r, hr, hr'⟩
    · rw [hx] at hy
      cases hy
      exact .inr ⟨_, hq, .root _ rfl⟩
    · exact .inr ⟨r, hr, .step _ _ _ hr' hy hq⟩

theorem good_atom {a : Atom} : GoodFrom c h (.atom a) := by
  intro q hq
  exfalso
  generalize hr : Ref.atom a = r at hq
  induction hq with
  | root p e => rw [← hr] at e; cases e
  | step p q x hp hx hq ih => exact ih

theorem good_obj {p : Nat} {x : Obj} (hx : h p = some x) (hd : DataObj c x) (hs : ∀ r ∈ slots x, GoodFrom c h r) : GoodFrom c h (.obj p) := by
  intro q hq
  rcases reach_cases hx hq with rfl | ⟨r, hr, hr'⟩
  · exact ⟨x, hx, hd⟩
  · exact hs r hr q hr'

/-- The object is in the table. -/
def InTab (s : St) (p : Nat) : Prop := ∃ n, (Key.obj p, n) ∈ s.values

def Looked (c : Consumer) (h : Heap) (s : St) : Ref → Prop
  | .atom _ => True
  | .obj p => InTab s p ∨ GoodFrom c h (.obj p)

/-- The table grows by objects that are data and have been looked into. -/
def Grows (c : Consumer) (h : Heap) (s s' : St) : Prop :=
  (∀ p, InTab s p → InTab s' p) ∧ ∀ p, InTab s' p → InTab s p ∨ ∃ x, h p = some x ∧ DataObj c x ∧ ∀ r ∈ slots x, Looked c h s' r

theorem Looked.mono {s s' : St} (hg : ∀ p, InTab s p → InTab s' p) {r : Ref} (hd : Looked c h s r) : Looked c h s' r := by
  cases r with
  | atom a => trivial
  | obj p => exact hd.imp (hg p) id

theorem Grows.refl (s : St) : Grows c h s s := ⟨fun _ h => h, fun _ h => .inl h⟩

theorem Grows.trans {s s1 s' : St} (h1 : Grows c h s s1) (h2 : Grows c h s1 s') : Grows c h s s' := by
  refine ⟨fun p hp => h2.1 p (h1.1 p hp), fun p hp => ?_⟩
  rcases h2.2 p hp with hp | hp
  · rcases h1.2 p hp with hp | ⟨x, hx, hd, hs⟩
    · exact .inl hp
    · exact .inr ⟨x, hx, hd, fun r hr => (hs r hr).mono h2.1⟩
  · exact .inr hp

theorem Grows.same {s s' : St} (hv : ∀ p, InTab s p ↔ InTab s' p) : Grows c h s s' := ⟨fun p => (hv p).mp, fun p hp => .inl ((hv p).mpr hp)⟩

theorem string_tab {lvl : Nat} {s s' : St} {x : Str} {ev : Ev} (he : emitString c lvl s x = .ok (s', ev)) : ∀ p, InTab s p ↔ InTab s' p := by
  unfold emitString at he
  intro p
  split at he
  · rcases process_ok he with ⟨-, -, rfl, n, rfl⟩ | ⟨-, h2⟩ | ⟨-, h2⟩
    · exact Iff.rfl
    · cases h2; exact Iff.rfl
    · cases h2
      constructor
      · rintro ⟨n, hn⟩
        exact ⟨n, List.mem_cons_of_mem _ hn⟩
      · rintro ⟨n, hn⟩
        rcases List.mem_cons.mp hn with hn | hn
        · cases hn
        · exact ⟨n, hn⟩
  · cases he; exact Iff.rfl

theorem all_grows {f : St → Ref → Out (St × Ev)} (hf : ∀ s r s' e, f s r = .ok (s', e) → Grows c h s s' ∧ Looked c h s' r) :
    ∀ (rs : List Ref) (s s' : St) (es : List Ev), emitAll f s rs = .ok (s', es) → Grows c h s s' ∧ ∀ r ∈ rs, Looked c h s' r
  | [], s, s', es, hh => by cases hh; exact ⟨.refl _, by simp⟩
  | r :: rs, s, s', es, hh => by
    unfold emitAll at hh
    split at hh
    · cases hh
    · cases hh
    · rename_i s1 e h1
      split at hh
      · cases hh
      · cases hh
      · rename_i s2 es' h2
        cases hh
        have a := hf _ _ _ _ h1
        have b := all_grows hf rs _ _ _ h2
        refine ⟨a.1.trans b.1, fun r' hr' => ?_⟩
        rcases List.mem_cons.mp hr' with rfl | hr'
        · exact a.2.mono b.1.1
        · exact b.2 r' hr'

theorem entries_grows {f g : St → Ref → Out (St × Ev)} (hf : ∀ s r s' e, f s r = .ok (s', e) → Grows c h s s' ∧ Looked c h s' r)
    (hg : ∀ s r s' e, g s r = .ok (s', e) → Grows c h s s' ∧ Looked c h s' r) :
    ∀ (rs : List (Ref × Ref)) (s s' : St) (es : List Ev), emitEntries f g s rs = .ok (s', es) →
      Grows c h s s' ∧ ∀ r ∈ slots (.map rs), Looked c h s' r
  | [], s, s', es, hh => by cases hh; exact ⟨.refl _, by simp [slots]⟩
  | (k, v) :: rs, s, s', es, hh => by
    unfold emitEntries at hh
    split at hh
    · cases hh
    · cases hh
    · rename_i s1 e h1
      split at hh
      · cases hh
      · cases hh
      · rename_i s2 e' h2
        split at hh
        · cases hh
        · cases hh
        · rename_i s3 es' h3
          cases hh
          have a := hf _ _ _ _ h1
          have a' := hg _ _ _ _ h2
          have b := entries_grows hf hg rs _ _ _ h3
          refine ⟨(a.1.trans a'.1).trans b.1, fun r' hr' => ?_⟩
          simp only [slots, List.flatMap_cons, List.cons_append, List.nil_append, List.mem_cons] at hr'
          rcases hr' with rfl | rfl | hr'
          · exact (a.2.mono a'.1.1).mono b.1.1
          · exact a'.2.mono b.1.1
          · exact b.2 r' hr'

theorem all_good {f : St → Ref → Out (St × Ev)} (hf : ∀ s r s' e, f s r = .ok (s', e) → s'.values = s.values ∧ GoodFrom c h r) :
    ∀ (rs : List Ref) (s s' : St) (es : List Ev), emitAll f s rs = .ok (s', es) → s'.values = s.values ∧ ∀ r ∈ rs, GoodFrom c h r
  | [], s, s', es, hh => by cases hh; exact ⟨rfl, by simp⟩
  | r :: rs, s, s', es, hh => by
    unfold emitAll at hh
    split at hh
    · cases hh
    · cases hh
    · rename_i s1 e h1
      split at hh
      · cases hh
      · cases hh
      · rename_i s2 es' h2
        cases hh
        have a := hf _ _ _ _ h1
        have b := all_good hf rs _ _ _ h2
        refine ⟨b.1.trans a.1, fun r' hr' => ?_⟩
        rcases List.mem_cons.mp hr' with rfl | hr'
        · exact a.2
        · exact b.2 r' hr'

theorem entries_good {f g : St → Ref → Out (St × Ev)} (hf : ∀ s r s' e, f s r = .ok (s', e) → s'.values = s.values ∧ GoodFrom c h r)
    (hg : ∀ s r s' e, g s r = .ok (s', e) → s'.values = s.values ∧ GoodFrom c h r) :
    ∀ (rs : List (Ref × Ref)) (s s' : St) (es : List Ev), emitEntries f g s rs = .ok (s', es) →
      s'.values = s.values ∧ ∀ r ∈ slots (.map rs), GoodFrom c h r
  | [], s, s', es, hh => by cases hh; exact ⟨rfl, by simp [slots]⟩
  | (k, v) :: rs, s, s', es, hh => by
    unfold emitEntries at hh
    split at hh
    · cases hh
    · cases hh
    · rename_i s1 e h1
      split at hh
      · cases hh
      · cases hh
      · rename_i s2 e' h2
        split at hh
        · cases hh
        · cases hh
        · rename_i s3 es' h3
          cases hh
          have a := hf _ _ _ _ h1
          have a' := hg _ _ _ _ h2
          have b := entries_good hf hg rs _ _ _ h3
          refine ⟨(b.1.trans a'.1).trans a.1, fun r' hr' => ?_⟩
          simp only [slots, List.flatMap_cons, List.cons_append, List.nil_append, List.mem_cons] at hr'
          rcases hr' with rfl | rfl | hr'
          · exact a.2
          · exact a'.2
          · exact b.2 r' hr'

theorem string_values {s s' : St} {x : Str} {ev : Ev} (he : emitString c 0 s x = .ok (s', ev)) : s'.values = s.values := by
  unfold emitString process at he
  split at he <;> (cases he; rfl)

theorem verbatim_good {p : Nat} {es : List (Ref × Ref)} {i : BitVec 64} (hp : h p = some (.map es)) (hck : (c.complexKeys || stringKeys es) = true)
    (hv : verbatim o.dialect es = some i) : GoodFrom c h (.obj p) := by
  refine good_obj hp (.inl (by simp only [isRich, plainMap, hck, Bool.not_true])) ?_
  unfold verbatim at hv
  split at hv
  · intro r hr
    simp only [slots, List.flatMap_cons, List.flatMap_nil, List.append_nil, List.mem_cons, List.not_mem_nil, or_false] at hr
    rcases hr with rfl | rfl
    · exact good_atom
    · exact good_atom
  · cases hv

theorem emit_good (hr : o.rich = false) : ∀ (n : Nat) (s : St) (r : Ref) (s' : St) (e : Ev), emit o c h n 0 s r = .ok (s', e) →
    s'.values = s.values ∧ GoodFrom c h r := by
  intro n
  induction n with
  | zero =>
    intro s r s' e he
    match r with
    | .atom (.str x) => exact ⟨string_values he, good_atom⟩
    | .atom .nil => cases he; exact ⟨rfl, good_atom⟩
    | .atom (.bool _) => cases he; exact ⟨rfl, good_atom⟩
    | .atom (.int _) => cases he; exact ⟨rfl, good_atom⟩
    | .atom (.float _) => cases he; exact ⟨rfl, good_atom⟩
    | .obj p => cases he
  | succ n ih =>
    intro s r s' e he
    match r with
    | .atom (.str x) => exact ⟨string_values he, good_atom⟩
    | .atom .nil => cases he; exact ⟨rfl, good_atom⟩
    | .atom (.bool _) => cases he; exact ⟨rfl, good_atom⟩
    | .atom (.int _) => cases he; exact ⟨rfl, good_atom⟩
    | .atom (.float _) => cases he; exact ⟨rfl, good_atom⟩
    | .obj p =>
      rw [emit.eq_def] at he
      simp only [process, if_true, hr, Bool.not_false] at he
      split at he
      · cases he
      · rename_i es hes
        obtain ⟨x, hx, hy⟩ := map_ok_iff.mp he
        cases hy
        have := all_good ih _ _ _ _ hx
        exact ⟨this.1, good_obj hes (.inl rfl) this.2⟩
      · rename_i es hes
        split at he
        · rename_i hck
          split at he
          · rename_i i hv
            cases he
            exact ⟨rfl, verbatim_good hes hck hv⟩
          · obtain ⟨x, hx, hy⟩ := map_ok_iff.mp he
            cases hy
            have := entries_good ih ih _ _ _ _ hx
            exact ⟨this.1, good_obj hes (.inl (by simp only [isRich, plainMap, hck, Bool.not_true])) this.2⟩
        · cases he
      · cases he
      · rename_i bs hes
        split at he
        · rename_i hb
          cases he
          exact ⟨rfl, good_obj hes (.inl (by simp only [isRich, hb, Bool.not_true])) (by simp [slots])⟩
        · cases he
      · rename_i t hes
        split at he
        · rename_i hb
          cases he
          exact ⟨rfl, good_obj hes (.inl (by simp only [isRich, hb, Bool.not_true])) (by simp [slots])⟩
        · cases he
      · rename_i t hes
        refine ⟨?_, good_obj hes (.inr ⟨t, rfl⟩) (by simp [slots])⟩
        split at he
        · cases he; rfl
        · split at he
          · cases he; rfl
          · obtain ⟨x, hx, hy⟩ := map_ok_iff.mp he
            cases hy
            refine (all_good (c := c) (h := fun _ => some (.arr [])) (fun s r s' e hh => ?_) _ _ _ _ hx).1
            split at hh
            · exact ⟨string_values hh, good_atom⟩
            · cases hh

/-- An object that is remembered: then it is in the table, and what is below has been looked into. -/
theorem process_grows {lvl : Nat} {s s' : St} {p : Nat} {x : Obj} {f : St → Out (St × Ev)} {ev : Ev} (hl : lvl ≠ 0) (hx : h p = some x)
    (hf : ∀ s, f s = .ok (s', ev) → Grows c h s s' ∧ DataObj c x ∧ ∀ r ∈ slots x, Looked c h s' r)
    (hp : process lvl s (.obj p) f = .ok (s', ev)) : Grows c h s s' ∧ Looked c h s' (.obj p) := by
  rcases process_ok hp with ⟨-, ⟨n, hn⟩, rfl, -⟩ | ⟨h0, -⟩ | ⟨-, h2⟩
  · exact ⟨.refl _, .inl ⟨n, lookup_mem hn⟩⟩
  · exact absurd h0 hl
  · obtain ⟨hg, hd, hs⟩ := hf _ h2
    refine ⟨⟨fun q hq => ?_, fun q hq => ?_⟩, .inl (hg.1 p ⟨_, List.mem_cons_self ..⟩)⟩
    · obtain ⟨n, hn⟩ := hq
      exact hg.1 q ⟨n, List.mem_cons_of_mem _ hn⟩
    · rcases hg.2 q hq with ⟨n, hn⟩ | hq
      · rcases List.mem_cons.mp hn with hn | hn
        · cases hn
          exact .inr ⟨x, hx, hd, hs⟩
        · exact .inl ⟨n, hn⟩
      · exact .inr hq

theorem emit_grows (hr : o.rich = false) : ∀ (n lvl : Nat) (s : St) (r : Ref) (s' : St) (e : Ev), emit o c h n lvl s r = .ok (s', e) →
    Grows c h s s' ∧ Looked c h s' r := by
  intro n
  induction n with
  | zero =>
    intro lvl s r s' e he
    match r with
    | .atom (.str x) => exact ⟨.same (string_tab he), trivial⟩
    | .atom .nil => cases he; exact ⟨.refl _, trivial⟩
    | .atom (.bool _) => cases he; exact ⟨.refl _, trivial⟩
    | .atom (.int _) => cases he; exact ⟨.refl _, trivial⟩
    | .atom (.float _) => cases he; exact ⟨.refl _, trivial⟩
    | .obj p => cases he
  | succ n ih =>
    intro lvl s r s' e he
    match r with
    | .atom (.str x) => exact ⟨.same (string_tab he), trivial⟩
    | .atom .nil => cases he; exact ⟨.refl _, trivial⟩
    | .atom (.bool _) => cases he; exact ⟨.refl _, trivial⟩
    | .atom (.int _) => cases he; exact ⟨.refl _, trivial⟩
    | .atom (.float _) => cases he; exact ⟨.refl _, trivial⟩
    | .obj p =>
      by_cases hl : lvl = 0
      · subst hl
        have := emit_good hr _ _ _ _ _ he
        exact ⟨.same fun p => by simp only [InTab, this.1], .inr this.2⟩
      · rw [emit.eq_def] at he
        simp only [hr, Bool.not_false, if_true] at he
        split at he
        · cases he
        · rename_i es hes
          refine process_grows hl hes (fun s he => ?_) he
          obtain ⟨x, hx, hy⟩ := map_ok_iff.mp he
          cases hy
          have := all_grows (ih lvl) _ _ _ _ hx
          exact ⟨this.1, .inl rfl, this.2⟩
        · rename_i es hes
          split at he
          · rename_i hck
            split at he
            · rename_i i hv
              cases he
              exact ⟨.refl _, .inr (verbatim_good hes hck hv)⟩
            · refine process_grows hl hes (fun s he => ?_) he
              obtain ⟨x, hx, hy⟩ := map_ok_iff.mp he
              cases hy
              have := entries_grows (ih _) (ih lvl) _ _ _ _ hx
              exact ⟨this.1, .inl (by simp only [isRich, plainMap, hck, Bool.not_true]), this.2⟩
          · cases he
        · rename_i es hes
          exact process_grows hl hes (fun s he => by cases he) he
        · rename_i bs hes
          refine process_grows hl hes (fun s he => ?_) he
          split at he
          · rename_i hb
            cases he
            exact ⟨.refl _, .inl (by simp only [isRich, hb, Bool.not_true]), by simp [slots]⟩
          · cases he
        · rename_i t hes
          refine process_grows hl hes (fun s he => ?_) he
          split at he
          · rename_i hb
            cases he
            exact ⟨.refl _, .inl (by simp only [isRich, hb, Bool.not_true]), by simp [slots]⟩
          · cases he
        · rename_i t hes
          refine process_grows hl hes (fun s he => ?_) he
          refine ⟨?_, .inr ⟨t, rfl⟩, by simp [slots]⟩
          split at he
          · cases he; exact .refl _
          · split at he
            · cases he; exact .refl _
            · obtain ⟨x, hx, hy⟩ := map_ok_iff.mp he
              cases hy
              refine (all_grows (fun s r s' e hh => ?_) _ _ _ _ hx).1
              split at hh
              · exact ⟨.same (string_tab hh), trivial⟩
              · cases hh

theorem stream_good (hr : o.rich = false) {n : Nat} {r : Ref} {e : Ev} (he : stream o c h n r = .ok e) : GoodFrom c h r := by
  unfold stream at he
  obtain ⟨x, hx, -⟩ := map_ok_iff.mp he
  obtain ⟨hg, hd⟩ := emit_grows hr _ _ _ _ _ _ hx
  have key : ∀ q, Reach h r q → InTab x.1 q ∨ GoodFrom c h (.obj q) := by
    intro q hq
    induction hq with
    | root p e => subst e; exact hd
    | step p q y hp hy hq ih =>
      rcases ih with ih | ih
      · rcases hg.2 p ih with ⟨n, hn⟩ | ⟨y', hy', -, hs⟩
        · cases hn
        · rw [hy] at hy'
          cases hy'
          exact hs _ hq
      · refine .inr fun q' hq' => ih q' ?_
        have hpq : Reach h (.obj p) q := .step _ _ _ (.root _ rfl) hy hq
        clear ih
        induction hq' with
        | root p' e => cases e; exact hpq
        | step a b z ha hz hb ih' => exact .step _ _ _ ih' hz hb
  intro q hq
  rcases key q hq with ht | hq'
  · rcases hg.2 q ht with ⟨n, hn⟩ | ⟨y, hy, hd, -⟩
    · cases hn
    · exact ⟨y, hy, hd⟩
  · exact hq' q (.root _ rfl)
end
end Verif.Stream
