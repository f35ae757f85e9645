import Verif.Types.RecAsgLemmas
import Batteries.Data.List.Perm
/-!
# When Assignable returns, for types that contain themselves
-/
set_option autoImplicit false
set_option linter.unusedVariables false
set_option linter.unusedSimpArgs false
set_option linter.unnecessarySeqFocus false
namespace Verif.RecAsg
open Verif.Value
open Verif.Types (Ty Env leafCase allO maxInt)
open Verif.Types.RecEq (Plain)
open Verif.Types.Rec (Guard G Check allG anyG andG Out out_mark inner outer Hits)

/-! ### Ranks -/

open Classical in
/-- How many of the first `N` can be reached -/
noncomputable def rank (R : Nat → Nat → Prop) (N t : Nat) : Nat :=
  ((Finset.range N).filter fun u => Relation.ReflTransGen R t u).card

theorem rank_le {R : Nat → Nat → Prop} {N t u : Nat} (h : R t u) : rank R N u ≤ rank R N t := by
  classical
  refine Finset.card_le_card fun a ha => ?_
  simp only [Finset.mem_filter] at ha ⊢
  exact ⟨ha.1, .head h ha.2⟩

theorem rank_lt {R : Nat → Nat → Prop} {N t u : Nat} (ht : t < N) (h : R t u) (hn : ¬ Relation.ReflTransGen R u t) : rank R N u < rank R N t := by
  classical
  refine Finset.card_lt_card ⟨fun a ha => ?_, fun hs => ?_⟩
  · simp only [Finset.mem_filter] at ha ⊢
    exact ⟨ha.1, .head h ha.2⟩
  · have : t ∈ (Finset.range N).filter fun u => Relation.ReflTransGen R t u := by
      simp only [Finset.mem_filter, Finset.mem_range]
      exact ⟨ht, .refl⟩
    have := hs this
    simp only [Finset.mem_filter] at this
    exact hn this.2

theorem rank_bound {R : Nat → Nat → Prop} {N t : Nat} : rank R N t ≤ N := by
  classical
  exact (Finset.card_filter_le _ _).trans (by simp)

theorem lt_of_get {T : Types} {t : Nat} {x : Node} (h : T[t]? = some x) : t < T.length := by
  by_contra hlt
  rw [List.getElem?_eq_none (by omega)] at h
  cases h

/-- How many operators follow one another -/
noncomputable def op (T : Types) (t : Nat) : Nat := rank (OperandOf T) T.length t

theorem op_lt {T : Types} (ho : ¬ OwnOperand T) {t u : Nat} {ts : List Nat} (h : T[t]? = some (.anyOf ts)) (hu : u ∈ ts) : op T u < op T t := by
  have hR : OperandOf T t u := ⟨ts, h, hu⟩
  refine rank_lt (lt_of_get h) hR fun hn => ho ⟨t, ?_⟩
  exact .head' hR hn

/-! ### The fuel that suffices -/

/-- The guard is made of addresses, none of which occurs twice. -/
def Fine (T : Types) : G → Prop
  | none => True
  | some s => s.aSeen.Nodup ∧ s.bSeen.Nodup ∧ (∀ t ∈ s.aSeen, t < T.length) ∧ (∀ t ∈ s.bSeen, t < T.length)

/-- How often it can get longer -/
def room (T : Types) : G → Nat
  | none => 2 * T.length + 1
  | some s => 2 * T.length - (s.aSeen.length + s.bSeen.length)

theorem room_le {T : Types} (g : G) : room T g ≤ 2 * T.length + 1 := by cases g <;> simp only [room] <;> omega

theorem nodup_len {l : List Nat} {N : Nat} (h : l.Nodup) (hN : ∀ t ∈ l, t < N) : l.length ≤ N := by
  have := (List.subperm_of_subset h (fun t ht => List.mem_range.2 (hN t ht))).length_le
  simpa using this

theorem Fine.out {T : Types} {c g : G} (h : Fine T c) (ho : Out c g) : Fine T g := by
  cases c <;> cases g <;> simp only [Out, Fine] at * <;> try trivial
  rw [ho.1, ho.2.1]; exact h

theorem room_out {T : Types} {c g : G} (ho : Out c g) : room T g = room T c := by
  cases c <;> cases g <;> simp only [Out, room] at * <;> try trivial
  rw [ho.1, ho.2.1]

theorem Fine.swap {T : Types} {g : G} (h : Fine T g) : Fine T (g.map swap) := by
  cases g with
  | none => trivial
  | some s => exact ⟨h.2.1, h.1, h.2.2.2, h.2.2.1⟩

theorem room_swap {T : Types} (g : G) : room T (g.map swap) = room T g := by
  cases g with
  | none => rfl
  | some s => simp only [room, Option.map_some, RecAsg.swap]; omega

theorem Out.swap {c g : G} (h : Out c g) : Out (c.map swap) (g.map swap) := by
  cases c <;> cases g <;> simp only [Out, Option.map] at * <;> try trivial
  exact ⟨h.2.1, h.1, h.2.2.2, h.2.2.1⟩

theorem fine_inner {T : Types} {g : G} {a b : Nat} (h : Fine T g) (ha : a < T.length) (hb : b < T.length) (hh : ¬ Hits g a (.obj b)) :
    Fine T (inner g a (.obj b)) ∧ room T (inner g a (.obj b)) < room T g := by
  cases g with
  | none => exact ⟨⟨by simp, by simp, by simpa using ha, by simpa using hb⟩, by simp [room, inner]; omega⟩
  | some s =>
    obtain ⟨h1, h2, h3, h4⟩ := h
    have hA : ∀ {l : List Nat} {t : Nat} {f : Bool}, l.Nodup → (∀ u ∈ l, u < T.length) → t < T.length →
        (if (f || l.contains t) = true then l else t :: l).Nodup ∧ (∀ u ∈ (if (f || l.contains t) = true then l else t :: l), u < T.length) := by
      intro l t f hl hlt ht
      split
      · exact ⟨hl, hlt⟩
      · rename_i hc
        simp only [Bool.or_eq_true, List.contains_eq_mem, decide_eq_true_eq, not_or] at hc
        exact ⟨List.nodup_cons.2 ⟨hc.2, hl⟩, by simpa using ⟨ht, hlt⟩⟩
    have ka := hA (f := s.seenInA) h1 h3 ha
    have kb := hA (f := s.seenInB) h2 h4 hb
    have hfine : Fine T (inner (some s) a (.obj b)) := ⟨ka.1, kb.1, ka.2, kb.2⟩
    refine ⟨hfine, ?_⟩
    have l1 := nodup_len ka.1 ka.2
    have l2 := nodup_len kb.1 kb.2
    have m1 := nodup_len h1 h3
    have m2 := nodup_len h2 h4
    have hh' : ¬ ((s.seenInA || s.aSeen.contains a) = true ∧ (s.seenInB || s.bSeen.contains b) = true) := by
      simpa [Hits, Guard.hit, Guard.mark] using hh
    show 2 * T.length - ((if (s.seenInA || s.aSeen.contains a) = true then s.aSeen else a :: s.aSeen).length +
      (if (s.seenInB || s.bSeen.contains b) = true then s.bSeen else b :: s.bSeen).length) < 2 * T.length - (s.aSeen.length + s.bSeen.length)
    by_cases c1 : (s.seenInA || s.aSeen.contains a) = true <;> by_cases c2 : (s.seenInB || s.bSeen.contains b) = true
    · exact absurd ⟨c1, c2⟩ hh'
    · rw [if_pos c1] at l1; rw [if_neg c2] at l2; rw [if_pos c1, if_neg c2]; simp only [List.length_cons] at *; omega
    · rw [if_neg c1] at l1; rw [if_pos c2] at l2; rw [if_neg c1, if_pos c2]; simp only [List.length_cons] at *; omega
    · rw [if_neg c1] at l1; rw [if_neg c2] at l2; rw [if_neg c1, if_neg c2]; simp only [List.length_cons] at *; omega

theorem out_outer {g : G} {a b : Nat} : Out g (outer g a (.obj b)) := by
  cases g with
  | none => trivial
  | some s => exact out_mark s a b

/-- A check that returns -/
abbrev Ret (P : G → Prop) (c : Check) : Prop := Rs P False False c True

theorem Ret.mk {P : G → Prop} {c : Check} (h : ∃ r g, c = some (r, g) ∧ P g) : Ret P c := by
  obtain ⟨r, g, h1, h2⟩ := h
  exact ⟨r, g, h1, h2, fun h => h.elim, fun h => h.elim⟩

/-- A check that returns, with another guard -/
theorem Ret.out {P P' : G → Prop} {c : Check} (h : Ret P c) (hp : ∀ g, P g → P' g) : Ret P' c := by
  obtain ⟨r, g, h1, h2, _⟩ := h
  exact .mk ⟨r, g, h1, hp g h2⟩

theorem ret_of {P : G → Prop} {c : Check} {q : Prop} (h : Rs P False False c q) : Ret P c := by
  obtain ⟨r, g, h1, h2, _⟩ := h
  exact .mk ⟨r, g, h1, h2⟩

theorem allO_total {f : Nat → Option Bool} : (us : List Nat) → (∀ u ∈ us, ∃ r, f u = some r) → ∃ r, allO f us = some r
  | [], _ => ⟨true, rfl⟩
  | u :: us, h => by
    obtain ⟨r, hr⟩ := h u (.head _)
    rw [allO, hr]
    cases r with
    | false => exact ⟨false, rfl⟩
    | true => exact allO_total us fun v hv => h v (.tail _ hv)

/-- What is on the left has no parts. -/
theorem left_total {E : Env} {T : Types} (hc : Closed T) (ho : ¬ OwnOperand T) : (n : Nat) → ∀ g a b s, T[a]? = some (.leaf s) →
    (∀ u, b = some u → u < T.length ∧ op T u < n) → 0 < n → ∃ r, asg E T n g a b = some (r, g)
  | 0, _, _, _, _, _, _, h => absurd h (by omega)
  | n + 1, g, a, b, s, ha, hb, _ => by
    by_cases hne : b = some a
    · subst hne; exact ⟨true, asg_same⟩
    · have : ∃ y, node? T b = some y := by
        cases b with
        | none => exact ⟨_, rfl⟩
        | some u => exact ⟨_, List.getElem?_eq_getElem (hb u rfl).1⟩
      obtain ⟨y, hy⟩ := this
      rw [asg_leaf hne ha hy, leafAsg.eq_def]
      split
      · exact ⟨_, rfl⟩
      · split
        · rename_i us _
          cases b with
          | none => cases hy
          | some b =>
            have hop : ∀ u ∈ us, op T u < op T b := fun u hu => op_lt ho hy hu
            have := hb b rfl
            obtain ⟨r, hr⟩ := allO_total (f := fun u => (asg E T n none a (some u)).map (·.1)) us (by
              intro u hu
              have h1 := hop u hu
              obtain ⟨r, hr⟩ := left_total (E := E) hc ho n none a (some u) s ha (fun w hw => by
                cases hw
                exact ⟨hc.refs _ (List.mem_of_getElem? hy) u hu, by omega⟩) (by omega)
              exact ⟨r, by rw [hr]; rfl⟩)
            rw [hr]
            exact ⟨_, rfl⟩
        · exact ⟨_, rfl⟩

/-- What is on the right is `any`. -/
theorem none_total {E : Env} {T : Types} (hc : Closed T) (ho : ¬ OwnOperand T) : (n : Nat) → ∀ g a, a < T.length → op T a < n →
    ∃ r, asg E T n g a none = some (r, g)
  | 0, _, _, _, h => absurd h (by omega)
  | n + 1, g, a, hl, hn => by
    have ha : T[a]? = some T[a] := List.getElem?_eq_getElem hl
    by_cases hx : T[a].isDeep = true
    · have key : Ret (fun g' => g' = g) (asg E T (n + 1) g a none) := by
        rw [asg_right (by simp) ha hx rfl]
        refine ret_of (deep_res (up := False) (down := False) (P := fun g' => g' = g) (P' := fun _ => True) (Q := fun _ _ => True) rfl hx (fun _ _ => trivial) (by rintro _ ⟨⟩)
          (by rintro _ _ _ _ _ _ _ ⟨⟩) ?_)
        · intro c d hask g' hg'
          subst hg'
          have hcd : d = none ∧ ∃ ts, T[a] = .anyOf ts ∧ c ∈ ts := by
            generalize T[a] = x at hask
            cases hask with
            | any h => exact ⟨rfl, _, rfl, h⟩
          obtain ⟨rfl, ts, hts, hm⟩ := hcd
          obtain ⟨r, hr⟩ := none_total hc ho n g' c (hc.refs _ (List.getElem_mem hl) c (by rw [hts]; exact hm)) (by
            have := op_lt ho (by rw [ha, hts]) hm
            omega)
          exact Ret.mk ⟨r, g', hr, rfl⟩
      obtain ⟨r, g', h1, rfl, _⟩ := key
      exact ⟨r, h1⟩
    · have : ∃ s, T[a] = .leaf s := by
        cases h : T[a] <;> first | exact ⟨_, rfl⟩ | (rw [h] at hx; exact absurd rfl hx)
      obtain ⟨s, hs⟩ := this
      exact left_total hc ho (n + 1) g a none s (by rw [ha, hs]) (by rintro _ ⟨⟩) (by omega)

/-- What is on the right has no parts. -/
theorem right_total {E : Env} {T : Types} (hc : Closed T) (ho : ¬ OwnOperand T) : (n : Nat) → ∀ g a b t, a < T.length → T[b]? = some (.leaf t) →
    T.length + 1 + op T a < n → ∃ r, asg E T n g a (some b) = some (r, g)
  | 0, _, _, _, _, _, _, h => absurd h (by omega)
  | n + 1, g, a, b, t, hl, hb, hn => by
    have ha : T[a]? = some T[a] := List.getElem?_eq_getElem hl
    by_cases hne : some b = some a
    · cases hne; exact ⟨true, asg_same⟩
    by_cases hx : T[a].isDeep = true
    · have key : Ret (fun g' => g' = g) (asg E T (n + 1) g a (some b)) := by
        rw [asg_right hne ha hx hb]
        refine ret_of (deep_res (up := False) (down := False) (P := fun g' => g' = g) (P' := fun _ => True) (Q := fun _ _ => True) rfl hx (fun _ _ => trivial) (by rintro _ ⟨⟩)
          (by rintro _ _ _ _ _ _ _ ⟨⟩) ?_)
        · intro c d hask g' hg'
          subst hg'
          have hm : c ∈ T[a].refs := by
            generalize T[a] = x at hask
            cases hask <;> simp_all [Node.refs]
          have hlt := hc.refs _ (List.getElem_mem hl) c hm
          have hb' : op T c ≤ T.length := rank_bound
          cases d with
          | none =>
            obtain ⟨r, hr⟩ := none_total (E := E) hc ho n g' c hlt (by omega)
            exact Ret.mk ⟨r, g', hr, rfl⟩
          | some d =>
            have hcd : d = b ∧ ∃ ts, T[a] = .anyOf ts ∧ c ∈ ts := by
              generalize T[a] = x at hask
              cases hask with
              | any h => exact ⟨rfl, _, rfl, h⟩
            obtain ⟨rfl, ts, hts, hm⟩ := hcd
            obtain ⟨r, hr⟩ := right_total hc ho n g' c d t hlt hb (by
              have := op_lt ho (by rw [ha, hts]) hm
              omega)
            exact Ret.mk ⟨r, g', hr, rfl⟩
      obtain ⟨r, g', h1, rfl, _⟩ := key
      exact ⟨r, h1⟩
    · have : ∃ s, T[a] = .leaf s := by
        cases h : T[a] <;> first | exact ⟨_, rfl⟩ | (rw [h] at hx; exact absurd rfl hx)
      obtain ⟨s, hs⟩ := this
      exact left_total hc ho (n + 1) g a (some b) s (by rw [ha, hs]) (by
        rintro _ ⟨⟩
        refine ⟨lt_of_get hb, ?_⟩
        have : op T b ≤ T.length := rank_bound
        omega) (by omega)

theorem asks_left {x y : Node} {b d : Option Nat} {c : Nat} (h : Asks b x y c d) : c ∈ x.refs := by
  cases h <;> simp_all [Node.refs]

theorem asks_right {x y : Node} {b c : Nat} {d : Option Nat} (h : Asks (some b) x y c d) (hy : y.isDeep = true) :
    ∃ d', d = some d' ∧ (d' = b ∨ d' ∈ y.refs) := by
  cases h <;> first | cases hy; done | simp [Node.refs]

/-- What suffices, when arrays follow one another `lev` times on one side -/
def fuel (T : Types) (lev : Nat) (g : G) : Nat := 2 * T.length + 2 + lev * (2 * T.length + 2) + room T g

theorem deep_total {E : Env} {T : Types} (hc : Closed T) (ho : ¬ OwnOperand T) {A B : Nat → Prop} {la lb : Nat → Nat}
    (hA : ∀ a u, A a → Mentions T a u → A u ∧ la u ≤ la a) (hB : ∀ a u, B a → Mentions T a u → B u ∧ lb u ≤ lb a)
    (harr : ∀ a b e lo hi e' lo' hi', A a → B b → T[a]? = some (.arr e lo hi) → T[b]? = some (.arr e' lo' hi') → la e + lb e' < la a + lb b) :
    (n : Nat) → ∀ g a b, a < T.length → b < T.length → A a → B b → Fine T g → fuel T (la a + lb b) g < n →
    Ret (Out g) (asg E T n g a (some b))
  | 0, _, _, _, _, _, _, _, _, h => absurd h (by omega)
  | n + 1, g, a, b, hla, hlb, hAa, hBb, hg, hn => by
    have ha : T[a]? = some T[a] := List.getElem?_eq_getElem hla
    have hb : T[b]? = some T[b] := List.getElem?_eq_getElem hlb
    have hopa : op T a ≤ T.length := rank_bound
    have hopb : op T b ≤ T.length := rank_bound
    by_cases hne : b = a
    · subst hne; exact .mk ⟨true, g, asg_same, Verif.Types.Rec.Out.refl g⟩
    by_cases hx : T[a].isDeep = true
    · by_cases hy : T[b].isDeep = true
      · by_cases hh : Hits g a (.obj b)
        · exact .mk ⟨true, _, asg_hit hne ha hx hb hy hh, out_outer⟩
        · rw [asg_deep hne ha hx hb hy hh]
          obtain ⟨hfi, hri⟩ := fine_inner hg hla hlb hh
          have key : Ret (Out (inner g a (.obj b))) (deepAsg (asg E T n) (inner g a (.obj b)) a (some b) T[a] T[b]) := by
            refine ret_of (deep_res (up := False) (down := False) (P := Out (inner g a (.obj b))) (P' := Out ((inner g a (.obj b)).map swap)) (Q := fun _ _ => True)
              (Verif.Types.Rec.Out.refl _) hx (fun _ h => Out.swap h) ?_ ?_ ?_)
            · intro us hus u hu g' hg'
              have hm : Mentions T b u := ⟨_, hb, by rw [hus]; exact hu⟩
              obtain ⟨hBu, hlu⟩ := hB b u hBb hm
              refine (deep_total hc ho hA hB harr n g' a u hla (hc.refs _ (List.getElem_mem hlb) u (by rw [hus]; exact hu)) hAa hBu
                (hfi.swap.out hg') ?_).out fun g'' h => hg'.trans h
              have e1 := room_out (T := T) hg'
              rw [room_swap] at e1
              have : (la a + lb u) * (2 * T.length + 2) ≤ (la a + lb b) * (2 * T.length + 2) := Nat.mul_le_mul_right _ (by omega)
              simp only [fuel] at hn ⊢
              omega
            · intro e lo hi e' lo' hi' h1 h2
              have hl := harr a b e lo hi e' lo' hi' hAa hBb (by rw [ha, h1]) (by rw [hb, h2])
              have hAe := (hA a e hAa ⟨_, ha, by rw [h1]; exact .head _⟩).1
              have hBe := (hB b e' hBb ⟨_, hb, by rw [h2]; exact .head _⟩).1
              refine (deep_total hc ho hA hB harr n none e e' (hc.refs _ (List.getElem_mem hla) e (by rw [h1]; exact .head _))
                (hc.refs _ (List.getElem_mem hlb) e' (by rw [h2]; exact .head _)) hAe hBe trivial ?_).out fun _ _ => trivial
              have : (la e + lb e' + 1) * (2 * T.length + 2) ≤ (la a + lb b) * (2 * T.length + 2) := Nat.mul_le_mul_right _ (by omega)
              rw [Nat.add_mul] at this
              simp only [fuel, room] at hn ⊢
              omega
            · intro c d hask g' hg'
              have hmc := asks_left hask
              have hmd := asks_right hask hy
              obtain ⟨d', rfl, hd'⟩ := hmd
              obtain ⟨hAc, hlc⟩ := hA a c hAa ⟨_, ha, hmc⟩
              have hBd : B d' ∧ lb d' ≤ lb b ∧ d' < T.length := by
                rcases hd' with rfl | hd'
                · exact ⟨hBb, Nat.le_refl _, hlb⟩
                · exact ⟨(hB b d' hBb ⟨_, hb, hd'⟩).1, (hB b d' hBb ⟨_, hb, hd'⟩).2, hc.refs _ (List.getElem_mem hlb) d' hd'⟩
              refine (deep_total hc ho hA hB harr n g' c d' (hc.refs _ (List.getElem_mem hla) c hmc) hBd.2.2 hAc hBd.1 (hfi.out hg') ?_).out
                fun g'' h => hg'.trans h
              have e1 := room_out (T := T) hg'
              have : (la c + lb d') * (2 * T.length + 2) ≤ (la a + lb b) * (2 * T.length + 2) := Nat.mul_le_mul_right _ (by omega)
              simp only [fuel] at hn ⊢
              omega
          obtain ⟨r, g', h1, _⟩ := key
          exact .mk ⟨r, _, by rw [h1]; rfl, out_outer⟩
      · have : ∃ s, T[b] = .leaf s := by
          cases h : T[b] <;> first | exact ⟨_, rfl⟩ | (rw [h] at hy; exact absurd rfl hy)
        obtain ⟨s, hs⟩ := this
        obtain ⟨r, hr⟩ := right_total (E := E) hc ho (n + 1) g a b s hla (by rw [hb, hs]) (by simp only [fuel] at hn; omega)
        exact .mk ⟨r, g, hr, Verif.Types.Rec.Out.refl g⟩
    · have : ∃ s, T[a] = .leaf s := by
        cases h : T[a] <;> first | exact ⟨_, rfl⟩ | (rw [h] at hx; exact absurd rfl hx)
      obtain ⟨s, hs⟩ := this
      obtain ⟨r, hr⟩ := left_total (E := E) hc ho (n + 1) g a (some b) s (by rw [ha, hs]) (by
        rintro _ ⟨⟩
        exact ⟨hlb, by simp only [fuel] at hn; omega⟩) (by omega)
      exact .mk ⟨r, g, hr, Verif.Types.Rec.Out.refl g⟩

theorem total {E : Env} {T : Types} (hc : Closed T) (ho : ¬ OwnOperand T) {a b : Nat} (hla : a < T.length) (hlb : b < T.length)
    (h : ¬ ArrayCycle T a ∨ ¬ ArrayCycle T b) : ∃ n r g, asg E T n none a (some b) = some (r, g) := by
  have hR : ∀ t, ∀ a u, Reach T t a → Mentions T a u → Reach T t u ∧ rank (Mentions T) T.length u ≤ rank (Mentions T) T.length a :=
    fun t a u h1 h2 => ⟨h1.tail h2, rank_le h2⟩
  have hstrict : ∀ t, ¬ ArrayCycle T t → ∀ u e lo hi, Reach T t u → T[u]? = some (.arr e lo hi) →
      rank (Mentions T) T.length e < rank (Mentions T) T.length u := fun t ht u e lo hi h1 h2 =>
    rank_lt (lt_of_get h2) ⟨_, h2, .head _⟩ fun hn => ht ⟨u, e, lo, hi, h1, h2, hn⟩
  have key : ∃ n, Ret (Out none) (asg E T n none a (some b)) := by
    rcases h with h | h
    · exact ⟨_, deep_total hc ho (A := Reach T a) (B := Reach T b) (la := rank (Mentions T) T.length) (lb := fun _ => 0) (hR a)
        (fun c u h1 h2 => ⟨(hR b c u h1 h2).1, Nat.le_refl _⟩) (fun c d e lo hi e' lo' hi' h1 h2 h3 h4 => by simpa using hstrict a h c e lo hi h1 h3)
        _ none a b hla hlb .refl .refl trivial (Nat.lt_succ_self _)⟩
    · exact ⟨_, deep_total hc ho (A := Reach T a) (B := Reach T b) (lb := rank (Mentions T) T.length) (la := fun _ => 0)
        (fun c u h1 h2 => ⟨(hR a c u h1 h2).1, Nat.le_refl _⟩) (hR b) (fun c d e lo hi e' lo' hi' h1 h2 h3 h4 => by simpa using hstrict b h d e' lo' hi' h2 h4)
        _ none a b hla hlb .refl .refl trivial (Nat.lt_succ_self _)⟩
  obtain ⟨n, r, g, h1, _⟩ := key
  exact ⟨n, r, g, h1⟩

end Verif.RecAsg
