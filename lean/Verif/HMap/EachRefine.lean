import Verif.HMap.EachSteps
/-! C108: the loop of the code is a loop of the specification. -/
set_option autoImplicit false
set_option linter.unusedSectionVars false
set_option linter.unusedSimpArgs false
set_option linter.unusedVariables false
namespace Verif.HMap
open Spec

variable {K V S : Type} [KeyOps K] [ValOps V]

/-- How many entries a map has room for. -/
def Room (w : World K V) (m : MRef) (cs : List (Cell K V)) (r : Int) : Prop :=
  ∃ g, w.maps[m]? = some g ∧ r = ((3 * g.table.length / 4 : Nat) : Int) - cs.length

/-- One call of the actor. -/
theorem step_cursor [LawfulKey K] {w : World K V} {css s m cs p c r} (h : WR w css s) (hm : css[m]? = some cs) (ha : At w css cs p c)
    (hroom : Room w m cs r) (op : Op K V) (hreg : Regular op) :
    ∃ css' cs' c' r', (exec w op).1 = (step s op).1 ∧ WR (exec w op).2 css' (step s op).2 ∧ css'[m]? = some cs' ∧
      At (exec w op).2 css' cs' p c' ∧ Room (exec w op).2 m cs' r' ∧ Moves m s c r op c' r' := by
  have hml : m < w.maps.length := by rw [← h.lenc]; exact (List.getElem?_eq_some_iff.1 hm).1
  obtain ⟨g, cs0, h1, h2, h3, h4⟩ := h.each m hml
  rw [hm] at h1; cases h1
  obtain ⟨g0, hg0, rfl⟩ := hroom
  rw [h3.map] at hg0; cases hg0
  have same : ∀ {o : Op K V} {out}, exec w o = (out, w) → step s o = (out, s) → Moves m s c (((3 * g.table.length / 4 : Nat) : Int) - cs.length) o c (((3 * g.table.length / 4 : Nat) : Int) - cs.length) →
      ∃ css' cs' c' r', (exec w o).1 = (step s o).1 ∧ WR (exec w o).2 css' (step s o).2 ∧ css'[m]? = some cs' ∧
      At (exec w o).2 css' cs' p c' ∧ Room (exec w o).2 m cs' r' ∧ Moves m s c (((3 * g.table.length / 4 : Nat) : Int) - cs.length) o c' r' := by
    intro o out e1 e2 e3
    rw [e1, e2]
    exact ⟨css, cs, c, _, rfl, h, hm, ha, ⟨g, h3.map, rfl⟩, e3⟩
  by_cases ht : op.target = some m
  · cases op with
    | put m' k v =>
      cases ht
      cases hz : g.frozen
      · obtain ⟨w', g', cs', a1, a2, a3, a4, a5, a6, a7, a8⟩ := put_run h3 h4 hz k v
        have hx : exec w (.put m k v) = (.val (lookup k (kv cs)), w') := by
          simp only [exec, Op.refs, List.all_cons, List.all_nil, hml, decide_true, Bool.and_true, if_true, call]
          rw [M.bind_ok a1]
          rfl
        have hs : step s (.put m k v) = (.val (lookup k (kv cs)), s.set m ⟨kv cs', g'.frozen⟩) := by
          simp only [step, h2, mutate, hz, Bool.false_eq_true, if_false]
          rw [a5, a6]
        rw [hx, hs]
        have hk := Keeps.eff hm a4
        refine ⟨css.set m cs', cs', ?_⟩
        cases a8 with
        | @hit A B x e1 e2 e3 =>
          have e4 : A ++ { x with v := v } :: B = setK k v cs := by subst e1; rw [setK_hit h4.distinct e2]
          rw [e4] at hk a4 a2 a3 ⊢
          refine ⟨c.set k v, _, rfl, h.eff hm a4 a2 a3, set_get hm, ha.set hk, ⟨g', a2.map, rfl⟩, ?_⟩
          rw [e3, show (setK k v cs).length = cs.length by simp [setK]]
          refine .replaced h2 hz ?_
          subst e1
          simp only [kv_append, kv_cons]
          rw [lookup_hit (kv_forall (others h4.distinct e2).1) e2]
          rfl
        | room e1 e2 e3 =>
          refine ⟨_, _, rfl, h.eff hm a4 a2 a3, set_get hm, ha.add hk, ⟨g', a2.map, rfl⟩, .added h2 hz (lookup_miss (kv_forall e1)) ?_ ?_⟩
          · have := h4.len
            omega
          · rw [e3, List.length_append, List.length_singleton]
            push_cast
            omega
        | grown e1 e2 e3 =>
          refine ⟨_, _, rfl, h.eff hm a4 a2 a3, set_get hm, ha.grow h hm h3 e3 hk, ⟨g', a2.map, rfl⟩, .grown h2 hz (lookup_miss (kv_forall e1)) ?_⟩
          have := h4.len
          omega
      · refine same (out := .panic) ?_ ?_ (.refused ?_)
        · simp only [exec, Op.refs, List.all_cons, List.all_nil, hml, decide_true, Bool.and_true, if_true, call]
          rw [put, M.bind_panic (s' := w) (by rw [M.bind_ok (getMap_run h3.map), hz]; rfl)]
        · simp only [step, h2, mutate, hz, if_true]
        · simp only [step, h2, mutate, hz, if_true]
    | putAll m' a =>
      cases ht
      by_cases hal : a < w.maps.length
      · obtain ⟨ga, as, k1, k2, k3, k4⟩ := h.each a hal
        by_cases he : as = []
        · subst he
          have hcall : putAll m a w = .ok () w := by
            rw [putAll]
            rw [M.bind_ok (getMap_run k3.map)]
            rw [if_pos (show ga.len = 0 from k4.len)]
            rfl
          refine same (out := .unit) ?_ ?_ (.nothing k2 rfl)
          · simp only [exec, Op.refs, List.all_cons, List.all_nil, hml, hal, decide_true, Bool.and_true, if_true, call]
            rw [M.bind_ok hcall]
            rfl
          · simp only [step, h2, k2, kv_nil, if_true]
        · have hkv : ¬ kv as = [] := by
            intro e; apply he
            have := congrArg List.length e
            rw [kv_length] at this
            exact List.length_eq_zero_iff.1 this
          cases hz : g.frozen
          · obtain ⟨w', g', cs', a1, a2, a3, a4, a5, a6, a7⟩ := putAll_run h3 h4 hz k3 k4.len he
              (fun hne => h.disj a m as cs (fun e => hne e.symm) k1 hm)
            have hx : exec w (.putAll m a) = (.unit, w') := by
              simp only [exec, Op.refs, List.all_cons, List.all_nil, hml, hal, decide_true, Bool.and_true, if_true, call]
              rw [M.bind_ok a1]
              rfl
            have hs : step s (.putAll m a) = (.unit, s.set m ⟨kv cs', g'.frozen⟩) := by
              simp only [step, h2, k2, hkv, mutate, hz, Bool.false_eq_true, if_false]
              rw [a5, a6]
            rw [hx, hs]
            exact ⟨css.set m cs', cs', _, _, rfl, h.eff hm a4 a2 a3, set_get hm, ha.grow h hm h3 a7 (Keeps.eff hm a4), ⟨g', a2.map, rfl⟩, .all h2 hz k2 hkv⟩
          · have hlen : ¬ ga.len = 0 := by rw [k4.len]; simp [he]
            refine same (out := .panic) ?_ ?_ (.refused ?_)
            · simp only [exec, Op.refs, List.all_cons, List.all_nil, hml, hal, decide_true, Bool.and_true, if_true, call]
              rw [putAll, M.bind_panic (s' := w) (by
                rw [M.bind_ok (getMap_run k3.map), if_neg hlen, M.bind_ok (getMap_run h3.map), hz]; rfl)]
            · simp only [step, h2, k2, hkv, mutate, hz, if_true, if_false]
            · simp only [step, h2, k2, hkv, mutate, hz, if_true, if_false]
      · have hna : s[a]? = none := by rw [List.getElem?_eq_none_iff, h.lens]; omega
        refine same (out := .panic) ?_ ?_ (.refused ?_)
        · simp [exec, Op.refs, hal]
        · simp only [step, h2, hna]
        · simp only [step, h2, hna]
    | remove m' k =>
      cases ht
      cases hz : g.frozen
      · obtain ⟨w', g', cs', a1, a2, a3, a4, a5, a6, a7⟩ := remove_run h3 h4 hz k
        have hx : exec w (.remove m k) = (.val (lookup k (kv cs)), w') := by
          simp only [exec, Op.refs, List.all_cons, List.all_nil, hml, decide_true, Bool.and_true, if_true, call]
          rw [M.bind_ok a1]
          rfl
        have hs : step s (.remove m k) = (.val (lookup k (kv cs)), s.set m ⟨kv cs', g'.frozen⟩) := by
          simp only [step, h2, mutate, hz, Bool.false_eq_true, if_false]
          rw [a5, a6]
        rw [hx, hs]
        have hk := Keeps.eff hm a4
        exact ⟨css.set m cs', cs', _, _, rfl, h.eff hm a4 a2 a3, set_get hm, ha.remove h hm h3 h4.distinct a7.1 hk, ⟨g', a2.map, rfl⟩, .removed h2 hz (by
          have hr := a7.2
          cases a7.1 with
          | miss e1 e2 => rw [lookup_miss (kv_forall e1)]; simp [hr]
          | @hit A B x e1 e2 e3 =>
            subst e1
            simp only [kv_append, kv_cons]
            rw [lookup_hit (kv_forall (others h4.distinct e2).1) e2, hr]
            simp only [List.length_append, List.length_cons, Option.isSome_some, if_true]
            push_cast
            omega)⟩
      · refine same (out := .panic) ?_ ?_ (.refused ?_)
        · simp only [exec, Op.refs, List.all_cons, List.all_nil, hml, decide_true, Bool.and_true, if_true, call]
          rw [remove, M.bind_panic (s' := w) (by rw [M.bind_ok (getMap_run h3.map), hz]; rfl)]
        · simp only [step, h2, mutate, hz, if_true]
        · simp only [step, h2, mutate, hz, if_true]
    | removeAll m' ks =>
      cases ht
      cases hz : g.frozen
      · obtain ⟨w', g', cs', a1, a2, a3, a4, a5, a6, a7⟩ := removeAll_run h3 h4 hz ks
        have hx : exec w (.removeAll m ks) = (.unit, w') := by
          simp only [exec, Op.refs, List.all_cons, List.all_nil, hml, decide_true, Bool.and_true, if_true, call]
          rw [M.bind_ok a1]
          rfl
        have hs : step s (.removeAll m ks) = (.unit, s.set m ⟨kv cs', g'.frozen⟩) := by
          simp only [step, h2, mutate, hz, Bool.false_eq_true, if_false]
          rw [a5, a6]
        rw [hx, hs]
        exact ⟨css.set m cs', cs', _, _, rfl, h.eff hm a4 a2 a3, set_get hm, ha.removes h hm h3 h4 a7, ⟨g', a2.map, rfl⟩, .removedAll h2 hz⟩
      · refine same (out := .panic) ?_ ?_ (.refused ?_)
        · simp only [exec, Op.refs, List.all_cons, List.all_nil, hml, decide_true, Bool.and_true, if_true, call]
          rw [removeAll, M.bind_panic (s' := w) (by rw [M.bind_ok (getMap_run h3.map), hz]; rfl)]
        · simp only [step, h2, mutate, hz, if_true]
        · simp only [step, h2, mutate, hz, if_true]
    | _ => cases ht
  · obtain ⟨css', e1, e2, e3⟩ := step_keeps h op hreg
    have hcs : css'[m]? = some cs := by rw [e3.cells m ht (List.getElem?_eq_some_iff.1 hm).1, hm]
    refine ⟨css', cs, c, _, e1, e2, hcs, ha.keep e3, ?_, .other ht⟩
    have hc := e3.caps m ht hml
    rw [h3.map] at hc
    cases hw' : (exec w op).2.maps[m]? with
    | none => rw [hw'] at hc; cases hc
    | some g' =>
      rw [hw'] at hc
      simp only [Option.map_some, Option.some.injEq] at hc
      exact ⟨g', hw', by rw [hc]⟩

/-- What the actor does. -/
theorem run_cursor [LawfulKey K] {P : Prog K V S} {w : World K V} {css s m cs p c r} (h : WR w css s) (hm : css[m]? = some cs) (ha : At w css cs p c)
    (hroom : Room w m cs r) (hreg : P.Calls Regular) :
    ∃ w' css' s' cs' c' r' x, P.run w = .ok x w' ∧ WR w' css' s' ∧ css'[m]? = some cs' ∧ At w' css' cs' p c' ∧ Room w' m cs' r' ∧ Acts m P s c r x s' c' r' := by
  induction P generalizing w css s cs c r with
  | ret st go => exact ⟨w, css, s, cs, c, r, (st, go), rfl, h, hm, ha, hroom, .ret⟩
  | call op cont ih =>
    obtain ⟨css1, cs1, c1, r1, e1, e2, e3, e4, e5, e6⟩ := step_cursor h hm ha hroom op hreg.1
    obtain ⟨w', css', s', cs', c', r', x, f1, f2, f3, f4, f5, f6⟩ := ih (exec w op).1 e2 e3 e4 e5 (hreg.2 _)
    rw [e1] at f6
    exact ⟨w', css', s', cs', c', r', x, f1, f2, f3, f4, f5, .call e6 f6⟩

theorem visit_cursor [LawfulKey K] {actor : S → K → V → Prog K V S} (hreg : ∀ s k v, (actor s k v).Calls Regular) {n : Nat} {st : S} {w : World K V}
    {css s m cs cur c r} (h : WR w css s) (hm : css[m]? = some cs) (ha : Here w css cs cur c) (hroom : Room w m cs r) :
    ∃ x w' css' s', visit actor n cur st w = .ok x w' ∧ WR w' css' s' ∧ Loops m actor n st s c r x s' := by
  induction n generalizing st w css s cs cur c r with
  | zero =>
    have hml : m < w.maps.length := by rw [← h.lenc]; exact (List.getElem?_eq_some_iff.1 hm).1
    obtain ⟨g, cs0, h1, h2, h3, h4⟩ := h.each m hml
    rw [hm] at h1; cases h1
    refine ⟨_, w, css, s, rfl, h, ?_⟩
    rw [ha.isSome h3]
    exact .pause
  | succ n ih =>
    have hml : m < w.maps.length := by rw [← h.lenc]; exact (List.getElem?_eq_some_iff.1 hm).1
    obtain ⟨g, cs0, h1, h2, h3, h4⟩ := h.each m hml
    rw [hm] at h1; cases h1
    cases hn : c.next with
    | none =>
      rw [ha.none hn]
      exact ⟨_, w, css, s, rfl, h, .ended hn⟩
    | some y =>
      obtain ⟨e, c1⟩ := y
      obtain ⟨q, nd, rfl, g1, g2, g3, g4⟩ := ha.some h3 hn
      obtain ⟨w1, css1, s1, cs1, c2, r2, x, f1, f2, f3, f4, f5, f6⟩ := run_cursor h hm g4 hroom (hreg st e.1 e.2)
      obtain ⟨s', go⟩ := x
      cases go with
      | false =>
        refine ⟨_, w1, css1, s1, ?_, f2, .left hn f6⟩
        rw [visit, M.bind_ok (getNode_run g1), g2, g3, M.bind_ok f1]
        rfl
      | true =>
        have hml1 : m < w1.maps.length := by rw [← f2.lenc]; exact (List.getElem?_eq_some_iff.1 f3).1
        obtain ⟨g', cs0, h1', h2', h3', h4'⟩ := f2.each m hml1
        rw [f3] at h1'; cases h1'
        obtain ⟨nd', i1, i2⟩ := f4.here h3'
        obtain ⟨x, w', css', s'', j1, j2, j3⟩ := ih (st := s') f2 f3 i2 f5
        refine ⟨_, w', css', s'', ?_, j2, .more hn f6 j3⟩
        rw [visit, M.bind_ok (getNode_run g1), g2, g3, M.bind_ok f1]
        simp only [if_true]
        rw [M.bind_ok (getNode_run i1), M.bind_ok j1]
        rfl

end Verif.HMap
