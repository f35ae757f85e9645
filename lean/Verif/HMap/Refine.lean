import Verif.HMap.Ops2
/-! The code model refines the specification: same observations for every program. -/
set_option linter.unusedSimpArgs false
namespace Verif.HMap
open Spec

variable {K V : Type} [KeyOps K]

/-- The heap `w` represents the abstract maps `s`; `css` lists the cells of each map. -/
structure WR (w : World K V) (css : List (List (Cell K V))) (s : AWorld K V) : Prop where
  lenc : css.length = w.maps.length
  lens : s.length = w.maps.length
  each : ∀ m, m < w.maps.length → ∃ g cs, css[m]? = some cs ∧ s[m]? = some ⟨kv cs, g.frozen⟩ ∧ RepM w m g cs ∧ Good g cs
  disj : ∀ (i j : Nat) (cs ds : List (Cell K V)), i ≠ j → css[i]? = some cs → css[j]? = some ds → ∀ x ∈ cs, x.p ∉ ds.map (·.p)

theorem WR.eff {w w' : World K V} {css s} (h : WR w css s) {m g' cs cs'} (hm : css[m]? = some cs)
    (he : Eff w w' m cs cs') (hr : RepM w' m g' cs') (hg : Good g' cs') :
    WR w' (css.set m cs') (s.set m ⟨kv cs', g'.frozen⟩) := by
  have hml : m < css.length := (List.getElem?_eq_some_iff.1 hm).1
  have hms : m < s.length := by rw [h.lens, ← h.lenc]; exact hml
  refine ⟨by rw [List.length_set, h.lenc, he.nmaps], by rw [List.length_set, h.lens, he.nmaps], ?_, ?_⟩
  · intro j hj
    rw [he.nmaps] at hj
    by_cases hjm : m = j
    · subst hjm
      exact ⟨g', cs', List.getElem?_set_self hml, List.getElem?_set_self hms, hr, hg⟩
    · obtain ⟨g, ds, h1, h2, h3, h4⟩ := h.each j hj
      exact ⟨g, ds, by rw [List.getElem?_set_ne hjm, h1], by rw [List.getElem?_set_ne hjm, h2],
        h3.frame he (fun e => hjm e.symm) (h.disj j m ds cs (fun e => hjm e.symm) h1 hm), h4⟩
  · have key : ∀ (j : Nat) (ds : List (Cell K V)), j ≠ m → css[j]? = some ds → ∀ x ∈ cs', x.p ∉ ds.map (·.p) := by
      intro j ds hjm hj x hx hc
      rcases he.own x hx with hx | hx
      · obtain ⟨y, hy, e⟩ := List.mem_map.1 hx
        exact h.disj m j cs ds (fun e => hjm e.symm) hm hj y hy (by rw [e]; exact hc)
      · obtain ⟨y, hy, e⟩ := List.mem_map.1 hc
        have hjl : j < w.maps.length := by rw [← h.lenc]; exact (List.getElem?_eq_some_iff.1 hj).1
        obtain ⟨g, ds', h1, _, h3, _⟩ := h.each j hjl
        rw [hj] at h1; cases h1
        have := h3.core.lt y hy
        omega
    intro i j as bs hij hi hj x hx
    by_cases him : m = i
    · subst him
      rw [List.getElem?_set_self hml] at hi; cases hi
      rw [List.getElem?_set_ne hij] at hj
      exact key j bs (fun e => hij e.symm) hj x hx
    · rw [List.getElem?_set_ne him] at hi
      by_cases hjm : m = j
      · subst hjm
        rw [List.getElem?_set_self hml] at hj; cases hj
        intro hc
        obtain ⟨y, hy, e⟩ := List.mem_map.1 hc
        exact key i as hij hi y hy (by rw [e]; exact List.mem_map_of_mem hx)
      · rw [List.getElem?_set_ne hjm] at hj
        exact h.disj i j as bs hij hi hj x hx

theorem WR.new {w w' : World K V} {css s} (h : WR w css s) {g' cs'} (hn : New w w' cs')
    (hr : RepM w' w.maps.length g' cs') (hg : Good g' cs') : WR w' (css ++ [cs']) (s ++ [⟨kv cs', g'.frozen⟩]) := by
  refine ⟨by simp [h.lenc, hn.nmaps], by simp [h.lens, hn.nmaps], ?_, ?_⟩
  · intro j hj
    rw [hn.nmaps] at hj
    by_cases hj' : j < w.maps.length
    · obtain ⟨g, ds, h1, h2, h3, h4⟩ := h.each j hj'
      exact ⟨g, ds, by rw [List.getElem?_append_left (by rw [h.lenc]; exact hj'), h1],
        by rw [List.getElem?_append_left (by rw [h.lens]; exact hj'), h2], h3.new hn, h4⟩
    · have : j = w.maps.length := by omega
      subst this
      refine ⟨g', cs', ?_, ?_, hr, hg⟩
      · rw [← h.lenc]; simp
      · rw [← h.lens]; simp
  · have key : ∀ (j : Nat) (ds : List (Cell K V)), css[j]? = some ds → ∀ x ∈ cs', x.p ∉ ds.map (·.p) := by
      intro j ds hj x hx hc
      obtain ⟨y, hy, e⟩ := List.mem_map.1 hc
      have hjl : j < w.maps.length := by rw [← h.lenc]; exact (List.getElem?_eq_some_iff.1 hj).1
      obtain ⟨g, ds', h1, _, h3, _⟩ := h.each j hjl
      rw [hj] at h1; cases h1
      have := h3.core.lt y hy
      have := hn.own x hx
      omega
    have split : ∀ j ds, (css ++ [cs'])[j]? = some ds → css[j]? = some ds ∨ (j = css.length ∧ ds = cs') := by
      intro j ds hj
      by_cases hl : j < css.length
      · left; rwa [List.getElem?_append_left hl] at hj
      · right
        rw [List.getElem?_append_right (by omega)] at hj
        have h0 := (List.getElem?_eq_some_iff.1 hj).1
        simp at h0
        have : j = css.length := by omega
        subst this
        simp at hj
        exact ⟨rfl, hj.symm⟩
    intro i j as bs hij hi hj x hx
    rcases split i as hi with hi' | ⟨hi', e1⟩ <;> rcases split j bs hj with hj' | ⟨hj', e2⟩
    · exact h.disj i j as bs hij hi' hj' x hx
    · intro hc
      subst e2
      obtain ⟨y, hy, e⟩ := List.mem_map.1 hc
      exact key i as hi' y hy (by rw [e]; exact List.mem_map_of_mem hx)
    · subst e1
      exact key j bs hj' x hx
    · omega

theorem World.init_WR : WR (World.init : World K V) [] [] where
  lenc := rfl
  lens := rfl
  each m hm := by simp [World.init] at hm
  disj i j cs ds _ hi := by simp at hi

theorem eraseAll_length_le (es : List (K × V)) (ks : List K) : (eraseAll es ks).length ≤ es.length := by
  induction ks generalizing es with
  | nil => exact Nat.le_refl _
  | cons k ks ih => exact Nat.le_trans (ih _) (List.length_filter_le _ _)

theorem eraseAll_any (es : List (K × V)) (ks : List K) :
    (ks.any (fun k => (lookup k es).isSome)) = !decide ((eraseAll es ks).length = es.length) := by
  have hlk : ∀ k, (lookup k es).isSome = false → erase es k = es := by
    intro k hk
    apply erase_miss
    intro e he
    cases h : KeyOps.eq k e.1
    · rfl
    · have : (lookup k es).isSome = true := by
        unfold lookup
        rw [Option.isSome_map, List.find?_isSome]
        exact ⟨e, he, h⟩
      rw [this] at hk; cases hk
  have hlt : ∀ k, (lookup k es).isSome = true → (erase es k).length < es.length := by
    intro k hk
    unfold lookup at hk
    rw [Option.isSome_map, List.find?_isSome] at hk
    obtain ⟨e, he, hk⟩ := hk
    have hle := List.length_filter_le (fun e : K × V => !KeyOps.eq k e.1) es
    rcases Nat.lt_or_ge (erase es k).length es.length with h | h
    · exact h
    · exfalso
      have := (List.length_filter_eq_length_iff).1 (Nat.le_antisymm hle h) e he
      simp [hk] at this
  induction ks with
  | nil => simp [eraseAll]
  | cons k ks ih =>
    rw [List.any_cons]
    cases hk : (lookup k es).isSome
    · rw [Bool.false_or, ih]
      have : eraseAll es (k :: ks) = eraseAll es ks := by
        show eraseAll (erase es k) ks = _
        rw [hlk k hk]
      rw [this]
    · rw [Bool.true_or]
      have h1 := hlt k hk
      have h2 := eraseAll_length_le (erase es k) ks
      have : ¬ (eraseAll es (k :: ks)).length = es.length := by
        show ¬ (eraseAll (erase es k) ks).length = es.length
        omega
      simp [this]

variable [ValOps V]

/-- The map that a call changes the entries of. -/
def _root_.Verif.HMap.Spec.Op.target : Op K V → Option MRef
  | .put m _ _ | .putAll m _ | .remove m _ | .removeAll m _ => some m
  | _ => none

/-- What a call that changes the entries of the map `t`, if any, leaves as it was. -/
structure Keeps (w : World K V) (css : List (List (Cell K V))) (w' : World K V) (css' : List (List (Cell K V))) (t : Option MRef) : Prop where
  grow : w.nodes.length ≤ w'.nodes.length
  cells : ∀ i, t ≠ some i → i < css.length → css'[i]? = css[i]?
  own : ∀ (i : Nat) (ds : List (Cell K V)), css'[i]? = some ds → ∀ x ∈ ds, (∃ cs : List (Cell K V), css[i]? = some cs ∧ x.p ∈ cs.map (·.p)) ∨ w.nodes.length ≤ x.p
  frame : ∀ p, p < w.nodes.length → (∀ (i : Nat) (cs : List (Cell K V)), t = some i → css[i]? = some cs → p ∉ cs.map (·.p)) → w'.nodes[p]? = w.nodes[p]?
  caps : ∀ i, t ≠ some i → i < w.maps.length → (w'.maps[i]?).map (·.table) = (w.maps[i]?).map (·.table)

omit [KeyOps K] [ValOps V] in
theorem Keeps.refl (w : World K V) (css : List (List (Cell K V))) (t : Option MRef) : Keeps w css w css t where
  grow := Nat.le_refl _
  cells _ _ _ := rfl
  own _ ds h x hx := .inl ⟨ds, h, List.mem_map_of_mem hx⟩
  frame _ _ _ := rfl
  caps _ _ _ := rfl

omit [KeyOps K] [ValOps V] in
theorem Keeps.eff {w w' : World K V} {css m cs cs'} (h1 : css[m]? = some cs) (he : Eff w w' m cs cs') : Keeps w css w' (css.set m cs') (some m) where
  grow := he.grow
  cells i hi _ := List.getElem?_set_ne (fun e => hi (by rw [e]))
  own i ds hd x hx := by
    by_cases e : m = i
    · subst e
      rw [List.getElem?_set_self (List.getElem?_eq_some_iff.1 h1).1] at hd
      cases hd
      exact (he.own x hx).imp (fun h => ⟨cs, h1, h⟩) id
    · rw [List.getElem?_set_ne e] at hd
      exact .inl ⟨ds, hd, List.mem_map_of_mem hx⟩
  frame p hp hn := he.frame p hp (hn m cs rfl h1)
  caps i hi _ := by rw [he.maps i (fun e => hi (by rw [e]))]

omit [KeyOps K] [ValOps V] in
theorem Keeps.new {w w' : World K V} {css cs'} (he : New w w' cs') : Keeps w css w' (css ++ [cs']) none where
  grow := he.grow
  cells i _ hi := List.getElem?_append_left hi
  own i ds hd x hx := by
    by_cases e : i < css.length
    · rw [List.getElem?_append_left e] at hd
      exact .inl ⟨ds, hd, List.mem_map_of_mem hx⟩
    · rw [List.getElem?_append_right (by omega)] at hd
      have : ds = cs' := by
        rw [List.getElem?_singleton] at hd
        split at hd
        · cases hd; rfl
        · cases hd
      subst this
      exact .inr (he.own x hx)
  frame p hp _ := he.frame p hp
  caps i _ hi := by rw [he.maps i hi]

/-- One call: same observation, and the heap still represents the abstract maps. -/
theorem step_keeps [LawfulKey K] {w : World K V} {css s} (h : WR w css s) (op : Op K V) (hr : Regular op) :
    ∃ css', (exec w op).1 = (step s op).1 ∧ WR (exec w op).2 css' (step s op).2 ∧ Keeps w css (exec w op).2 css' op.target := by
  have notin : ∀ m, ¬ m < w.maps.length → s[m]? = none := by
    intro m hm; rw [List.getElem?_eq_none_iff, h.lens]; omega
  cases op with
  | new c =>
    have hRep := RepM.alloc (w := w) (n := tableSizeFor (4 * (if c = 0 then 8 else c) / 3)) (tableSizeFor_le _)
      (g := ⟨List.replicate (tableSizeFor (4 * (if c = 0 then 8 else c) / 3)) none, 0, none, none, false⟩) rfl rfl rfl
    have hGood : Good (⟨List.replicate (tableSizeFor (4 * (if c = 0 then 8 else c) / 3)) none, 0, none, none, false⟩ : HM)
        ([] : List (Cell K V)) := by
      refine ⟨rfl, ?_, List.Pairwise.nil⟩
      have := tableSizeFor_pos (4 * (if c = 0 then 8 else c) / 3)
      simp only [List.length_replicate]
      omega
    refine ⟨_, ?_, h.new New.alloc hRep hGood, Keeps.new New.alloc⟩
    simp only [exec, step, mk, Op.refs, List.all_nil, if_true, call]
    show Out.ref w.maps.length = _
    rw [h.lens]
  | newEmpty =>
    have hRep := RepM.alloc (w := w) (n := 0) (by omega) (g := ⟨[], 0, none, none, true⟩) rfl rfl rfl
    refine ⟨_, ?_, h.new New.alloc hRep ⟨rfl, fun _ => rfl, List.Pairwise.nil⟩, Keeps.new New.alloc⟩
    show Out.ref w.maps.length = Out.ref s.length
    rw [h.lens]
  | ofList kvs frozen =>
    obtain ⟨w', g', cs', a1, a2, a3, a4, a5, a6⟩ := toMap_run (w := w) hr frozen
    have hx : exec w (.ofList kvs frozen) = (.ref w.maps.length, w') := by
      simp only [exec, Op.refs, List.all_nil, if_true, call]
      rw [M.bind_ok a1]
      rfl
    rw [hx]
    refine ⟨css ++ [cs'], ?_, ?_⟩
    · simp only [step, mk, h.lens]
    · have := h.new a4 a2 a3
      rw [a5, a6] at this
      exact ⟨this, Keeps.new a4⟩
  | get m k =>
    by_cases hm : m < w.maps.length
    · obtain ⟨g, cs, h1, h2, h3, h4⟩ := h.each m hm
      have hx : exec w (.get m k) = (.val (lookup k (kv cs)), w) := by
        simp only [exec, Op.refs, List.all_cons, List.all_nil, hm, decide_true, Bool.and_true, if_true, call]
        rw [M.bind_ok (mget_run h3 h4.distinct k)]
        rfl
      rw [hx]
      simp only [step, h2]
      exact ⟨css, by first | rfl | trivial, h, Keeps.refl _ _ _⟩
    · have hx : exec w (.get m k : Op K V) = (.panic, w) := by
        simp [exec, Op.refs, hm]
      rw [hx]
      simp only [step, notin m hm]
      exact ⟨css, by first | rfl | trivial, h, Keeps.refl _ _ _⟩
  | containsKey m k =>
    by_cases hm : m < w.maps.length
    · obtain ⟨g, cs, h1, h2, h3, h4⟩ := h.each m hm
      have hx : exec w (.containsKey m k) = (.bool (lookup k (kv cs)).isSome, w) := by
        simp only [exec, Op.refs, List.all_cons, List.all_nil, hm, decide_true, Bool.and_true, if_true, call, containsKey]
        rw [M.bind_ok (show (mget m k >>= fun r => pure r.isSome) w = .ok (lookup k (kv cs)).isSome w by
          rw [M.bind_ok (mget_run h3 h4.distinct k)]; rfl)]
        rfl
      rw [hx]
      simp only [step, h2]
      exact ⟨css, by first | rfl | trivial, h, Keeps.refl _ _ _⟩
    · have hx : exec w (.containsKey m k : Op K V) = (.panic, w) := by
        simp [exec, Op.refs, hm]
      rw [hx]
      simp only [step, notin m hm]
      exact ⟨css, by first | rfl | trivial, h, Keeps.refl _ _ _⟩
  | len m =>
    by_cases hm : m < w.maps.length
    · obtain ⟨g, cs, h1, h2, h3, h4⟩ := h.each m hm
      have hx : exec w (.len m) = (.nat (kv cs).length, w) := by
        simp only [exec, Op.refs, List.all_cons, List.all_nil, hm, decide_true, Bool.and_true, if_true, call, mlen]
        rw [M.bind_ok (show (getMap m >>= fun g => pure g.len) w = .ok g.len w by
          rw [M.bind_ok (getMap_run h3.map)]; rfl), h4.len, kv_length]
        rfl
      rw [hx]
      simp only [step, h2]
      exact ⟨css, by first | rfl | trivial, h, Keeps.refl _ _ _⟩
    · have hx : exec w (.len m : Op K V) = (.panic, w) := by
        simp [exec, Op.refs, hm]
      rw [hx]
      simp only [step, notin m hm]
      exact ⟨css, by first | rfl | trivial, h, Keeps.refl _ _ _⟩
  | entries m =>
    by_cases hm : m < w.maps.length
    · obtain ⟨g, cs, h1, h2, h3, h4⟩ := h.each m hm
      have hx : exec w (.entries m) = (.list (kv cs), w) := by
        simp only [exec, Op.refs, List.all_cons, List.all_nil, hm, decide_true, Bool.and_true, if_true, call]
        rw [M.bind_ok (entries_run h3)]
        rfl
      rw [hx]
      simp only [step, h2]
      exact ⟨css, by first | rfl | trivial, h, Keeps.refl _ _ _⟩
    · have hx : exec w (.entries m : Op K V) = (.panic, w) := by
        simp [exec, Op.refs, hm]
      rw [hx]
      simp only [step, notin m hm]
      exact ⟨css, by first | rfl | trivial, h, Keeps.refl _ _ _⟩
  | put m k v =>
    by_cases hm : m < w.maps.length
    · obtain ⟨g, cs, h1, h2, h3, h4⟩ := h.each m hm
      simp only [step, h2, mutate]
      cases hz : g.frozen
      · obtain ⟨w', g', cs', a1, a2, a3, a4, a5, a6, _, _⟩ := put_run h3 h4 hz k v
        have hx : exec w (.put m k v) = (.val (lookup k (kv cs)), w') := by
          simp only [exec, Op.refs, List.all_cons, List.all_nil, hm, decide_true, Bool.and_true, if_true, call]
          rw [M.bind_ok a1]
          rfl
        rw [hx]
        refine ⟨css.set m cs', by first | rfl | trivial, ?_⟩
        have := h.eff h1 a4 a2 a3
        rw [a5, a6] at this
        exact ⟨this, Keeps.eff h1 a4⟩
      · have hx : exec w (.put m k v) = (.panic, w) := by
          simp only [exec, Op.refs, List.all_cons, List.all_nil, hm, decide_true, Bool.and_true, if_true, call]
          rw [put, M.bind_panic (s' := w) (by rw [M.bind_ok (getMap_run h3.map), hz]; rfl)]
        rw [hx]
        exact ⟨css, by first | rfl | trivial, h, Keeps.refl _ _ _⟩
    · have hx : exec w (.put m k v : Op K V) = (.panic, w) := by
        simp [exec, Op.refs, hm]
      rw [hx]
      simp only [step, notin m hm]
      exact ⟨css, by first | rfl | trivial, h, Keeps.refl _ _ _⟩
  | putAll m a =>
    by_cases hm : m < w.maps.length
    · by_cases ha : a < w.maps.length
      · obtain ⟨g, cs, h1, h2, h3, h4⟩ := h.each m hm
        obtain ⟨ga, as, k1, k2, k3, k4⟩ := h.each a ha
        simp only [step, h2, k2, mutate]
        by_cases he : as = []
        · subst he
          have hcall : putAll m a w = .ok () w := by
            rw [putAll]
            rw [M.bind_ok (getMap_run k3.map)]
            rw [if_pos (show ga.len = 0 from k4.len)]
            rfl
          have hx : exec w (.putAll m a) = (.unit, w) := by
            simp only [exec, Op.refs, List.all_cons, List.all_nil, hm, ha, decide_true, Bool.and_true, if_true, call]
            rw [M.bind_ok hcall]
            rfl
          rw [hx]
          simp only [kv_nil, if_true]
          exact ⟨css, by first | rfl | trivial, h, Keeps.refl _ _ _⟩
        · have hkv : ¬ kv as = [] := by
            intro e; apply he
            have := congrArg List.length e
            rw [kv_length] at this
            exact List.length_eq_zero_iff.1 this
          simp only [hkv, if_false]
          cases hz : g.frozen
          · obtain ⟨w', g', cs', a1, a2, a3, a4, a5, a6, _⟩ := putAll_run h3 h4 hz k3 k4.len he
              (fun hne => h.disj a m as cs (fun e => hne e.symm) k1 h1)
            have hx : exec w (.putAll m a) = (.unit, w') := by
              simp only [exec, Op.refs, List.all_cons, List.all_nil, hm, ha, decide_true, Bool.and_true, if_true, call]
              rw [M.bind_ok a1]
              rfl
            rw [hx]
            refine ⟨css.set m cs', by first | rfl | trivial, ?_⟩
            have := h.eff h1 a4 a2 a3
            rw [a5, a6] at this
            exact ⟨this, Keeps.eff h1 a4⟩
          · have hlen : ¬ ga.len = 0 := by rw [k4.len]; simp [he]
            have hx : exec w (.putAll m a) = (.panic, w) := by
              simp only [exec, Op.refs, List.all_cons, List.all_nil, hm, ha, decide_true, Bool.and_true, if_true, call]
              rw [putAll, M.bind_panic (s' := w) (by
                rw [M.bind_ok (getMap_run k3.map), if_neg hlen, M.bind_ok (getMap_run h3.map), hz]; rfl)]
            rw [hx]
            exact ⟨css, by first | rfl | trivial, h, Keeps.refl _ _ _⟩
      · have hx : exec w (.putAll m a : Op K V) = (.panic, w) := by
          simp [exec, Op.refs, ha]
        rw [hx]
        obtain ⟨g, cs, h1, h2, h3, h4⟩ := h.each m hm
        simp only [step, h2, notin a ha]
        exact ⟨css, by first | rfl | trivial, h, Keeps.refl _ _ _⟩
    · have hx : exec w (.putAll m a : Op K V) = (.panic, w) := by
        simp [exec, Op.refs, hm]
      rw [hx]
      simp only [step, notin m hm]
      exact ⟨css, by first | rfl | trivial, h, Keeps.refl _ _ _⟩
  | remove m k =>
    by_cases hm : m < w.maps.length
    · obtain ⟨g, cs, h1, h2, h3, h4⟩ := h.each m hm
      simp only [step, h2, mutate]
      cases hz : g.frozen
      · obtain ⟨w', g', cs', a1, a2, a3, a4, a5, a6, _⟩ := remove_run h3 h4 hz k
        have hx : exec w (.remove m k) = (.val (lookup k (kv cs)), w') := by
          simp only [exec, Op.refs, List.all_cons, List.all_nil, hm, decide_true, Bool.and_true, if_true, call]
          rw [M.bind_ok a1]
          rfl
        rw [hx]
        refine ⟨css.set m cs', by first | rfl | trivial, ?_⟩
        have := h.eff h1 a4 a2 a3
        rw [a5, a6] at this
        exact ⟨this, Keeps.eff h1 a4⟩
      · have hx : exec w (.remove m k) = (.panic, w) := by
          simp only [exec, Op.refs, List.all_cons, List.all_nil, hm, decide_true, Bool.and_true, if_true, call]
          rw [remove, M.bind_panic (s' := w) (by rw [M.bind_ok (getMap_run h3.map), hz]; rfl)]
        rw [hx]
        exact ⟨css, by first | rfl | trivial, h, Keeps.refl _ _ _⟩
    · have hx : exec w (.remove m k : Op K V) = (.panic, w) := by
        simp [exec, Op.refs, hm]
      rw [hx]
      simp only [step, notin m hm]
      exact ⟨css, by first | rfl | trivial, h, Keeps.refl _ _ _⟩
  | removeAll m ks =>
    by_cases hm : m < w.maps.length
    · obtain ⟨g, cs, h1, h2, h3, h4⟩ := h.each m hm
      simp only [step, h2, mutate]
      cases hz : g.frozen
      · obtain ⟨w', g', cs', a1, a2, a3, a4, a5, a6, _⟩ := removeAll_run h3 h4 hz ks
        have hx : exec w (.removeAll m ks) = (.unit, w') := by
          simp only [exec, Op.refs, List.all_cons, List.all_nil, hm, decide_true, Bool.and_true, if_true, call]
          rw [M.bind_ok a1]
          rfl
        rw [hx]
        refine ⟨css.set m cs', by first | rfl | trivial, ?_⟩
        have := h.eff h1 a4 a2 a3
        rw [a5, a6] at this
        exact ⟨this, Keeps.eff h1 a4⟩
      · have hx : exec w (.removeAll m ks) = (.panic, w) := by
          simp only [exec, Op.refs, List.all_cons, List.all_nil, hm, decide_true, Bool.and_true, if_true, call]
          rw [removeAll, M.bind_panic (s' := w) (by rw [M.bind_ok (getMap_run h3.map), hz]; rfl)]
        rw [hx]
        exact ⟨css, by first | rfl | trivial, h, Keeps.refl _ _ _⟩
    · have hx : exec w (.removeAll m ks : Op K V) = (.panic, w) := by
        simp [exec, Op.refs, hm]
      rw [hx]
      simp only [step, notin m hm]
      exact ⟨css, by first | rfl | trivial, h, Keeps.refl _ _ _⟩
  | freeze m =>
    by_cases hm : m < w.maps.length
    · obtain ⟨g, cs, h1, h2, h3, h4⟩ := h.each m hm
      simp only [step, h2]
      have hx : exec w (.freeze m) = (.unit, ⟨w.nodes, w.maps.set m { g with frozen := true }⟩) := by
        simp only [exec, Op.refs, List.all_cons, List.all_nil, hm, decide_true, Bool.and_true, if_true, call, freeze]
        rw [M.bind_ok (show (getMap m >>= fun g => setMap m { g with frozen := true }) w =
          .ok () ⟨w.nodes, w.maps.set m { g with frozen := true }⟩ by rw [M.bind_ok (getMap_run h3.map)]; rfl)]
        rfl
      rw [hx]
      refine ⟨css.set m cs, by first | rfl | trivial, ?_⟩
      refine ⟨h.eff h1 Eff.setMap (h3.setMap { g with frozen := true } rfl rfl rfl) ⟨h4.len, fun _ => rfl, h4.distinct⟩, ?_⟩
      rw [set_same h1]
      exact ⟨Nat.le_refl _, fun _ _ _ => rfl, fun _ ds h x hx => .inl ⟨ds, h, List.mem_map_of_mem hx⟩, fun _ _ _ => rfl, fun i _ _ => by
        by_cases e : m = i
        · subst e; simp only; rw [List.getElem?_set_self hm, h3.map]; rfl
        · simp only; rw [List.getElem?_set_ne e]⟩
    · have hx : exec w (.freeze m : Op K V) = (.panic, w) := by
        simp [exec, Op.refs, hm]
      rw [hx]
      simp only [step, notin m hm]
      exact ⟨css, by first | rfl | trivial, h, Keeps.refl _ _ _⟩
  | copy m frozen =>
    by_cases hm : m < w.maps.length
    · obtain ⟨g, cs, h1, h2, h3, h4⟩ := h.each m hm
      simp only [step, h2]
      by_cases hz : (frozen && g.frozen) = true
      · have hcall : copy m frozen w = .ok m w := by
          rw [copy]
          rw [M.bind_ok (getMap_run h3.map)]
          rw [if_pos hz]
          rfl
        have hx : exec w (.copy m frozen) = (.ref m, w) := by
          simp only [exec, Op.refs, List.all_cons, List.all_nil, hm, decide_true, Bool.and_true, if_true, call]
          rw [M.bind_ok hcall]
          rfl
        rw [hx, if_pos hz]
        exact ⟨css, by first | rfl | trivial, h, Keeps.refl _ _ _⟩
      · obtain ⟨w', g', cs', a1, a2, a3, a4, a5, a6⟩ := copyMap_run (g0 := ⟨[], g.len, none, none, frozen⟩) h3 h4 rfl rfl
          (fun _ v => if frozen then ValOps.freeze v else ValOps.thaw v)
        have hcall : copy m frozen w = .ok w.maps.length w' := by
          rw [copy]
          rw [M.bind_ok (getMap_run h3.map)]
          rw [if_neg hz, M.bind_ok allocMap_run]
          exact a1
        have hx : exec w (.copy m frozen) = (.ref w.maps.length, w') := by
          simp only [exec, Op.refs, List.all_cons, List.all_nil, hm, decide_true, Bool.and_true, if_true, call]
          rw [M.bind_ok hcall]
          rfl
        rw [hx, if_neg hz]
        refine ⟨css ++ [cs'], ?_, ?_⟩
        · simp only [mk, h.lens]
        · have := h.new a4 a2 a3
          rw [a5, a6] at this
          exact ⟨this, Keeps.new a4⟩
    · have hx : exec w (.copy m frozen : Op K V) = (.panic, w) := by
        simp [exec, Op.refs, hm]
      rw [hx]
      simp only [step, notin m hm]
      exact ⟨css, by first | rfl | trivial, h, Keeps.refl _ _ _⟩
  | map m fn =>
    by_cases hm : m < w.maps.length
    · obtain ⟨g, cs, h1, h2, h3, h4⟩ := h.each m hm
      simp only [step, h2]
      obtain ⟨w', g', cs', a1, a2, a3, a4, a5, a6⟩ := copyMap_run (g0 := ⟨[], g.len, none, none, g.frozen⟩) h3 h4 rfl rfl fn
      have hcall : mapMap m fn w = .ok w.maps.length w' := by
        rw [mapMap]
        rw [M.bind_ok (getMap_run h3.map)]
        rw [M.bind_ok allocMap_run]
        exact a1
      have hx : exec w (.map m fn) = (.ref w.maps.length, w') := by
        simp only [exec, Op.refs, List.all_cons, List.all_nil, hm, decide_true, Bool.and_true, if_true, call]
        rw [M.bind_ok hcall]
        rfl
      rw [hx]
      refine ⟨css ++ [cs'], ?_, ?_⟩
      · simp only [mk, h.lens]
      · have := h.new a4 a2 a3
        rw [a5, a6] at this
        exact ⟨this, Keeps.new a4⟩
    · have hx : exec w (.map m fn : Op K V) = (.panic, w) := by
        simp [exec, Op.refs, hm]
      rw [hx]
      simp only [step, notin m hm]
      exact ⟨css, by first | rfl | trivial, h, Keeps.refl _ _ _⟩
  | merge m a =>
    by_cases hm : m < w.maps.length
    · by_cases ha : a < w.maps.length
      · obtain ⟨g, cs, h1, h2, h3, h4⟩ := h.each m hm
        obtain ⟨ga, as, k1, k2, k3, k4⟩ := h.each a ha
        simp only [step, h2, k2]
        have e1 : (kv as = [] ∨ m = a) ↔ (ga.len = 0 ∨ m = a) := by
          rw [k4.len, ← kv_length as, List.length_eq_zero_iff]
        have e2 : kv cs = [] ↔ g.len = 0 := by
          rw [h4.len, ← kv_length cs, List.length_eq_zero_iff]
        by_cases hc : ga.len = 0 ∨ m = a
        · have hcall : merge m a w = .ok m w := by
            rw [merge]
            rw [M.bind_ok (getMap_run k3.map)]
            rw [if_pos hc]
            rfl
          have hx : exec w (.merge m a) = (.ref m, w) := by
            simp only [exec, Op.refs, List.all_cons, List.all_nil, hm, ha, decide_true, Bool.and_true, if_true, call]
            rw [M.bind_ok hcall]
            rfl
          rw [hx, if_pos (e1.2 hc)]
          exact ⟨css, by first | rfl | trivial, h, Keeps.refl _ _ _⟩
        · rw [if_neg (fun x => hc (e1.1 x))]
          by_cases hc2 : g.len = 0
          · have hcall : merge m a w = .ok a w := by
              rw [merge]
              rw [M.bind_ok (getMap_run k3.map)]
              rw [if_neg hc, M.bind_ok (getMap_run h3.map), if_pos hc2]
              rfl
            have hx : exec w (.merge m a) = (.ref a, w) := by
              simp only [exec, Op.refs, List.all_cons, List.all_nil, hm, ha, decide_true, Bool.and_true, if_true, call]
              rw [M.bind_ok hcall]
              rfl
            rw [hx, if_pos (e2.2 hc2)]
            exact ⟨css, by first | rfl | trivial, h, Keeps.refl _ _ _⟩
          · rw [if_neg (fun x => hc2 (e2.1 x))]
            obtain ⟨w1, g1, cs1, a1, a2, a3, a4, a5, a6, a7⟩ := resize_new_run
              (g0 := ⟨[], g.len, none, none, false⟩) h3 rfl (g.len + ga.len)
            have hl1 : cs1.length = cs.length := by rw [← kv_length, a4, kv_length]
            have hg1 : Good g1 cs1 := ⟨by rw [a6, hl1]; exact h4.len, by omega, distinct_kv h4.distinct (by rw [a4])⟩
            have hae : as ≠ [] := by
              intro e; apply hc; left; rw [k4.len, e]; rfl
            obtain ⟨w2, g2, cs2, b1, b2, b3, b4, b5, b6, _⟩ := putAll_run a2 hg1 (by rw [a5]) (k3.new a3) k4.len hae (by
              intro _ x hx hcx
              obtain ⟨y, hy, e⟩ := List.mem_map.1 hcx
              have := a3.own y hy
              have := k3.core.lt x hx
              omega)
            have hcall : merge m a w = .ok w.maps.length ⟨w2.nodes, w2.maps.set w.maps.length { g2 with frozen := g.frozen }⟩ := by
              rw [merge]
              rw [M.bind_ok (getMap_run k3.map)]
              rw [if_neg hc, M.bind_ok (getMap_run h3.map), if_neg hc2, M.bind_ok allocMap_run, M.bind_ok a1, M.bind_ok b1, M.bind_ok (getMap_run b2.map), M.bind_ok setMap_run]
              rfl
            have hx : exec w (.merge m a) = (.ref w.maps.length, ⟨w2.nodes, w2.maps.set w.maps.length { g2 with frozen := g.frozen }⟩) := by
              simp only [exec, Op.refs, List.all_cons, List.all_nil, hm, ha, decide_true, Bool.and_true, if_true, call]
              rw [M.bind_ok hcall]
              rfl
            rw [hx]
            refine ⟨css ++ [cs2], by simp only [mk, h.lens], ?_⟩
            have := h.new ((a3.trans b4).trans Eff.setMap) (b2.setMap { g2 with frozen := g.frozen } rfl rfl rfl)
              ⟨b3.len, by
                have := tbl_pos b3 b6
                simp only; omega, b3.distinct⟩
            rw [b5, a4] at this
            exact ⟨this, Keeps.new ((a3.trans b4).trans Eff.setMap)⟩
      · have hx : exec w (.merge m a : Op K V) = (.panic, w) := by
          simp [exec, Op.refs, ha]
        rw [hx]
        obtain ⟨g, cs, h1, h2, h3, h4⟩ := h.each m hm
        simp only [step, h2, notin a ha]
        exact ⟨css, by first | rfl | trivial, h, Keeps.refl _ _ _⟩
    · have hx : exec w (.merge m a : Op K V) = (.panic, w) := by
        simp [exec, Op.refs, hm]
      rw [hx]
      simp only [step, notin m hm]
      exact ⟨css, by first | rfl | trivial, h, Keeps.refl _ _ _⟩
  | withEntry m k v =>
    by_cases hm : m < w.maps.length
    · obtain ⟨g, cs, h1, h2, h3, h4⟩ := h.each m hm
      have hstep : step s (.withEntry m k v) = if eqGot v (lookup k (kv cs)) then (.ref m, s) else mk s ⟨insert (kv cs) k v, g.frozen⟩ := by
        simp only [step, h2]
        cases hlk : lookup k (kv cs) with
        | none => rw [if_neg]; simp only [eqGot]; rw [show ValOps.isNil v = false from hr]; simp
        | some o => rfl
      rw [hstep]
      by_cases h0 : g.table.length = 0
      · have hcs : cs = [] := h3.core.empty h0
        subst hcs
        have hl0 : g.len = 0 := h4.len
        have hRep := RepM.alloc (w := w) (n := tableSizeFor 8) (tableSizeFor_le _)
          (g := ⟨List.replicate (tableSizeFor 8) none, g.len, none, none, false⟩) rfl rfl rfl
        have hGood : Good (⟨List.replicate (tableSizeFor 8) none, g.len, none, none, false⟩ : HM)
            ([] : List (Cell K V)) := by
          refine ⟨hl0, ?_, List.Pairwise.nil⟩
          have := tableSizeFor_pos 8
          simp only [List.length_replicate]
          omega
        obtain ⟨w2, g2, cs2, b1, b2, b3, b4, b5, b6, b7, _⟩ := put_run hRep hGood rfl k v
        have hcall : withEntry m k v w = .ok w.maps.length ⟨w2.nodes, w2.maps.set w.maps.length { g2 with frozen := g.frozen }⟩ := by
          rw [withEntry]
          rw [M.bind_ok (getMap_run h3.map)]
          rw [if_pos h0, M.bind_ok allocMap_run, M.bind_ok b1, M.bind_ok (getMap_run b2.map), M.bind_ok setMap_run]
          rfl
        have hx : exec w (.withEntry m k v) = (.ref w.maps.length, ⟨w2.nodes, w2.maps.set w.maps.length { g2 with frozen := g.frozen }⟩) := by
          simp only [exec, Op.refs, List.all_cons, List.all_nil, hm, decide_true, Bool.and_true, if_true, call]
          rw [M.bind_ok hcall]
          rfl
        have hn : eqGot v (lookup k (kv ([] : List (Cell K V)))) = false := hr
        rw [hx, hn]
        refine ⟨css ++ [cs2], by simp [mk, h.lens], ?_⟩
        have := h.new ((New.alloc.trans b4).trans Eff.setMap) (b2.setMap { g2 with frozen := g.frozen } rfl rfl rfl)
          ⟨b3.len, by simp only; omega, b3.distinct⟩
        rw [b5] at this
        exact ⟨this, Keeps.new ((New.alloc.trans b4).trans Eff.setMap)⟩
      · by_cases he : eqGot v (lookup k (kv cs)) = true
        · have hcall : withEntry m k v w = .ok m w := by
            rw [withEntry]
            rw [M.bind_ok (getMap_run h3.map)]
            rw [if_neg h0, M.bind_ok (mget_run h3 h4.distinct k), if_pos he]
            rfl
          have hx : exec w (.withEntry m k v) = (.ref m, w) := by
            simp only [exec, Op.refs, List.all_cons, List.all_nil, hm, decide_true, Bool.and_true, if_true, call]
            rw [M.bind_ok hcall]
            rfl
          rw [hx, if_pos he]
          exact ⟨css, by first | rfl | trivial, h, Keeps.refl _ _ _⟩
        · rw [if_neg he]
          obtain ⟨w1, g1, cs1, a1, a2, a3, a4, a5, a6, a7⟩ := resize_new_run
            (g0 := ⟨[], g.len, none, none, false⟩) h3 rfl 1
          have hl1 : cs1.length = cs.length := by rw [← kv_length, a4, kv_length]
          have hg1 : Good g1 cs1 := ⟨by rw [a6, hl1]; exact h4.len, by omega, distinct_kv h4.distinct (by rw [a4])⟩
          obtain ⟨w2, g2, cs2, b1, b2, b3, b4, b5, b6, b7, _⟩ := put_run a2 hg1 (by rw [a5]) k v
          have hcall : withEntry m k v w = .ok w.maps.length ⟨w2.nodes, w2.maps.set w.maps.length { g2 with frozen := g.frozen }⟩ := by
            rw [withEntry]
            rw [M.bind_ok (getMap_run h3.map)]
            rw [if_neg h0, M.bind_ok (mget_run h3 h4.distinct k), if_neg he, M.bind_ok allocMap_run, M.bind_ok a1, M.bind_ok b1, M.bind_ok (getMap_run b2.map), M.bind_ok setMap_run]
            rfl
          have hx : exec w (.withEntry m k v) = (.ref w.maps.length, ⟨w2.nodes, w2.maps.set w.maps.length { g2 with frozen := g.frozen }⟩) := by
            simp only [exec, Op.refs, List.all_cons, List.all_nil, hm, decide_true, Bool.and_true, if_true, call]
            rw [M.bind_ok hcall]
            rfl
          rw [hx]
          refine ⟨css ++ [cs2], by simp only [mk, h.lens], ?_⟩
          have := h.new ((a3.trans b4).trans Eff.setMap) (b2.setMap { g2 with frozen := g.frozen } rfl rfl rfl)
            ⟨b3.len, by simp only; omega, b3.distinct⟩
          rw [b5, a4] at this
          exact ⟨this, Keeps.new ((a3.trans b4).trans Eff.setMap)⟩
    · have hx : exec w (.withEntry m k v : Op K V) = (.panic, w) := by
        simp [exec, Op.refs, hm]
      rw [hx]
      simp only [step, notin m hm]
      exact ⟨css, by first | rfl | trivial, h, Keeps.refl _ _ _⟩
  | without m k =>
    by_cases hm : m < w.maps.length
    · obtain ⟨g, cs, h1, h2, h3, h4⟩ := h.each m hm
      simp only [step, h2]
      cases hlk : lookup k (kv cs) with
      | none =>
        have hcall : without m k w = .ok m w := by
          rw [without]
          rw [M.bind_ok (mget_run h3 h4.distinct k)]
          rw [hlk]
          rfl
        have hx : exec w (.without m k) = (.ref m, w) := by
          simp only [exec, Op.refs, List.all_cons, List.all_nil, hm, decide_true, Bool.and_true, if_true, call]
          rw [M.bind_ok hcall]
          rfl
        rw [hx]
        exact ⟨css, by first | rfl | trivial, h, Keeps.refl _ _ _⟩
      | some o =>
        obtain ⟨w1, g1, cs1, a1, a2, a3, a4, a5, a6, a7⟩ := resize_new_run
          (g0 := ⟨[], g.len, none, none, false⟩) h3 rfl 0
        have hl1 : cs1.length = cs.length := by rw [← kv_length, a4, kv_length]
        have hg1 : Good g1 cs1 := ⟨by rw [a6, hl1]; exact h4.len, by omega, distinct_kv h4.distinct (by rw [a4])⟩
        obtain ⟨w2, g2, cs2, b1, b2, b3, b4, b5, b6, _⟩ := remove_run a2 hg1 (by rw [a5]) k
        have hcall : without m k w = .ok w.maps.length ⟨w2.nodes, w2.maps.set w.maps.length { g2 with frozen := g.frozen }⟩ := by
          rw [without]
          rw [M.bind_ok (mget_run h3 h4.distinct k)]
          rw [hlk]
          dsimp only
          rw [M.bind_ok (getMap_run h3.map), M.bind_ok allocMap_run, M.bind_ok a1, M.bind_ok b1, M.bind_ok (getMap_run b2.map), M.bind_ok setMap_run]
          rfl
        have hx : exec w (.without m k) = (.ref w.maps.length, ⟨w2.nodes, w2.maps.set w.maps.length { g2 with frozen := g.frozen }⟩) := by
          simp only [exec, Op.refs, List.all_cons, List.all_nil, hm, decide_true, Bool.and_true, if_true, call]
          rw [M.bind_ok hcall]
          rfl
        rw [hx]
        refine ⟨css ++ [cs2], by simp [mk, h.lens], ?_⟩
        have := h.new ((a3.trans b4).trans Eff.setMap) (b2.setMap { g2 with frozen := g.frozen } rfl rfl rfl)
          ⟨b3.len, by
            have := tbl_pos b3 b6
            simp only; omega, b3.distinct⟩
        rw [b5, a4] at this
        exact ⟨this, Keeps.new ((a3.trans b4).trans Eff.setMap)⟩
    · have hx : exec w (.without m k : Op K V) = (.panic, w) := by
        simp [exec, Op.refs, hm]
      rw [hx]
      simp only [step, notin m hm]
      exact ⟨css, by first | rfl | trivial, h, Keeps.refl _ _ _⟩
  | withoutAll m ks =>
    by_cases hm : m < w.maps.length
    · obtain ⟨g, cs, h1, h2, h3, h4⟩ := h.each m hm
      simp only [step, h2, eraseAll_any]
      by_cases hc : g.len = 0 ∨ ks.length = 0
      · have hcall : withoutAll m ks w = .ok m w := by
          rw [withoutAll]
          rw [M.bind_ok (getMap_run h3.map)]
          rw [if_pos hc]
          rfl
        have hx : exec w (.withoutAll m ks) = (.ref m, w) := by
          simp only [exec, Op.refs, List.all_cons, List.all_nil, hm, decide_true, Bool.and_true, if_true, call]
          rw [M.bind_ok hcall]
          rfl
        have he : eraseAll (kv cs) ks = kv cs := by
          rcases hc with hc | hc
          · rw [h4.len] at hc
            rw [List.length_eq_zero_iff.1 hc]
            exact eraseAll_nil ks
          · rw [List.length_eq_zero_iff.1 hc]; rfl
        rw [hx, he]
        simp only [decide_true, Bool.not_true, Bool.false_eq_true, if_false]
        exact ⟨css, by first | rfl | trivial, h, Keeps.refl _ _ _⟩
      · obtain ⟨w1, g1, cs1, a1, a2, a3, a4, a5, a6, a7⟩ := resize_new_run
          (g0 := ⟨[], g.len, none, none, false⟩) h3 rfl 0
        have hl1 : cs1.length = cs.length := by rw [← kv_length, a4, kv_length]
        have hg1 : Good g1 cs1 := ⟨by rw [a6, hl1]; exact h4.len, by omega, distinct_kv h4.distinct (by rw [a4])⟩
        obtain ⟨w2, g2, cs2, b1, b2, b3, b4, b5, b6, _⟩ := removeAll_run a2 hg1 (by rw [a5]) ks
        have hl2 : g2.len = (eraseAll (kv cs) ks).length := by rw [b3.len, ← kv_length, b5, a4]
        by_cases hl : g.len = g2.len
        · -- every lookup failed: the copy is dropped
          have hn2 := a3.trans b4
          have hcall : withoutAll m ks w = .ok m ⟨w2.nodes, w2.maps.dropLast⟩ := by
            rw [withoutAll]
            rw [M.bind_ok (getMap_run h3.map)]
            rw [if_neg hc, M.bind_ok allocMap_run, M.bind_ok a1, M.bind_ok b1, M.bind_ok (getMap_run b2.map), if_pos hl]
            rfl
          have hx : exec w (.withoutAll m ks) = (.ref m, ⟨w2.nodes, w2.maps.dropLast⟩) := by
            simp only [exec, Op.refs, List.all_cons, List.all_nil, hm, decide_true, Bool.and_true, if_true, call]
            rw [M.bind_ok hcall]
            rfl
          have he : decide ((eraseAll (kv cs) ks).length = (kv cs).length) = true := by
            rw [← hl2, kv_length, ← h4.len]; simp; omega
          rw [hx, he]
          simp only [Bool.not_true, Bool.false_eq_true, if_false]
          refine ⟨css, by first | rfl | trivial, ?_⟩
          have hmaps : w2.maps.dropLast = w.maps := by
            apply List.ext_getElem?
            intro j
            by_cases hj : j < w.maps.length
            · rw [List.getElem?_dropLast, if_pos (by rw [hn2.nmaps]; omega), hn2.maps j hj]
            · rw [List.getElem?_eq_none (by rw [List.length_dropLast, hn2.nmaps]; omega),
                List.getElem?_eq_none (by omega)]
          rw [hmaps]
          refine ⟨⟨h.lenc, h.lens, ?_, h.disj⟩, hn2.grow, fun _ _ _ => rfl, fun _ ds h x hx => .inl ⟨ds, h, List.mem_map_of_mem hx⟩, fun p hp _ => hn2.frame p hp, fun _ _ _ => rfl⟩
          intro j hj
          obtain ⟨g', ds, q1, q2, q3, q4⟩ := h.each j hj
          exact ⟨g', ds, q1, q2, ⟨q3.map, q3.core.frame fun c hc => hn2.frame _ (q3.core.lt c hc)⟩, q4⟩
        · have hcall : withoutAll m ks w = .ok w.maps.length ⟨w2.nodes, w2.maps.set w.maps.length { g2 with frozen := g.frozen }⟩ := by
            rw [withoutAll]
            rw [M.bind_ok (getMap_run h3.map)]
            rw [if_neg hc, M.bind_ok allocMap_run, M.bind_ok a1, M.bind_ok b1, M.bind_ok (getMap_run b2.map), if_neg hl, M.bind_ok setMap_run]
            rfl
          have hx : exec w (.withoutAll m ks) = (.ref w.maps.length, ⟨w2.nodes, w2.maps.set w.maps.length { g2 with frozen := g.frozen }⟩) := by
            simp only [exec, Op.refs, List.all_cons, List.all_nil, hm, decide_true, Bool.and_true, if_true, call]
            rw [M.bind_ok hcall]
            rfl
          rw [hx]
          have hne : decide ((eraseAll (kv cs) ks).length = (kv cs).length) = false := by
            rw [← hl2, kv_length, ← h4.len]; simp; omega
          rw [hne]
          refine ⟨css ++ [cs2], by simp [mk, h.lens], ?_⟩
          have := h.new ((a3.trans b4).trans Eff.setMap) (b2.setMap { g2 with frozen := g.frozen } rfl rfl rfl)
            ⟨b3.len, by
              have := tbl_pos b3 b6
              simp only; omega, b3.distinct⟩
          rw [b5, a4] at this
          exact ⟨this, Keeps.new ((a3.trans b4).trans Eff.setMap)⟩
    · have hx : exec w (.withoutAll m ks : Op K V) = (.panic, w) := by
        simp [exec, Op.refs, hm]
      rw [hx]
      simp only [step, notin m hm]
      exact ⟨css, by first | rfl | trivial, h, Keeps.refl _ _ _⟩

/-- One call: same observation, and the heap still represents the abstract maps. -/
theorem step_refines [LawfulKey K] {w : World K V} {css s} (h : WR w css s) (op : Op K V) (hr : Regular op) :
    ∃ css', (exec w op).1 = (step s op).1 ∧ WR (exec w op).2 css' (step s op).2 :=
  let ⟨css', h1, h2, _⟩ := step_keeps h op hr
  ⟨css', h1, h2⟩

end Verif.HMap
