import Verif.Conc.LoaderVal
/-!
# C105: loaders as values
-/
set_option autoImplicit false
set_option linter.unusedSimpArgs false
set_option linter.unusedVariables false
namespace Verif.Conc.LoaderVal
open Verif.Value (Val Str WF fold31 sortInts)

/-! ## Lemmas -/

theorem wf_mem : ∀ {es : List (Val × Val)}, Value.WFes es → ∀ e ∈ es, WF e.1 ∧ WF e.2
  | (_, _) :: _, h, e, he => by
    rcases List.mem_cons.1 he with rfl | he
    · exact ⟨h.1, h.2.1⟩
    · exact wf_mem h.2.2 e he

theorem lookVal_some {es es' : List (Val × Val)} (h1 : WF (.map es)) (h2 : WF (.map es')) (h : Value.eq (.map es) (.map es') = true)
    {k v : Val} (hk : WF k) (hl : lookVal k es = some v) : ∃ w, lookVal k es' = some w ∧ Value.eq v w = true := by
  simp only [lookVal, Option.map_eq_some_iff] at hl
  obtain ⟨e, he, rfl⟩ := hl
  have hem := List.mem_of_find?_eq_some he
  have hek := List.find?_some he
  simp only [Value.eq, Bool.and_eq_true] at h
  obtain ⟨b, hb, hv⟩ := (Value.eqMap_iff es es').1 h.2 e hem
  refine ⟨b.2, ?_, hv⟩
  have hke := (wf_mem h1.1 e hem).1
  have : es'.find? (fun x => Value.eq k x.1) = es'.find? (fun x => Value.eq e.1 x.1) := by
    have hc : ∀ x ∈ es', Value.eq k x.1 = Value.eq e.1 x.1 := by
      intro x hx
      have hxw := (wf_mem h2.1 x hx).1
      have hke' := Value.laws.symm _ _ hk hke hek
      cases ha : Value.eq k x.1 <;> cases hb' : Value.eq e.1 x.1 <;> try rfl
      · rw [Value.laws.trans _ _ _ hk hke hxw hek hb'] at ha; exact ha.symm
      · rw [Value.laws.trans _ _ _ hke hk hxw hke' ha] at hb'; exact hb'
    clear hb h h2
    induction es' with
    | nil => rfl
    | cons x r ih =>
      rw [List.find?_cons, List.find?_cons, hc x (List.mem_cons_self ..), ih fun y hy => hc y (by simp [hy])]
  rw [lookVal, this, hb]; rfl

theorem lookVal_same {es es' : List (Val × Val)} (h1 : WF (.map es)) (h2 : WF (.map es')) (h : Value.eq (.map es) (.map es') = true)
    {k : Val} (hk : WF k) : Same (lookVal k es) (lookVal k es') := by
  cases ha : lookVal k es with
  | some v =>
    obtain ⟨w, hw, he⟩ := lookVal_some h1 h2 h hk ha
    rw [hw]; exact he
  | none =>
    cases hb : lookVal k es' with
    | none => trivial
    | some w =>
      obtain ⟨v, hv, _⟩ := lookVal_some h2 h1 (Value.laws.symm _ _ h1 h2 h) hk hb
      rw [hv] at ha; cases ha

theorem look_same {ns ns' : List (Str × T)} (hd : (ns.map (·.1)).Nodup) (hd' : (ns'.map (·.1)).Nodup)
    (hl : ns.length = ns'.length) (h : leqNs ns ns' = true) (n : Str) : SameNs (look n ns) (look n ns') := by
  rw [leqNs_iff] at h
  cases ha : look n ns with
  | some t =>
    obtain ⟨t', ht', he⟩ := h _ (look_mem ha)
    rw [ht']; exact he
  | none =>
    cases hb : look n ns' with
    | none => trivial
    | some t' =>
      have hs : ns.map (·.1) ⊆ ns'.map (·.1) := by
        intro m hm
        obtain ⟨e, he, rfl⟩ := List.mem_map.1 hm
        obtain ⟨t'', ht'', _⟩ := h e he
        exact List.mem_map.2 ⟨_, look_mem ht'', rfl⟩
      have hp := (List.subperm_of_subset hd hs).perm_of_length_le (by simp [hl])
      have hm : n ∈ ns.map (·.1) := hp.mem_iff.2 (List.mem_map.2 ⟨_, look_mem hb, rfl⟩)
      obtain ⟨e, he, rfl⟩ := List.mem_map.1 hm
      rw [look_of_mem hd he] at ha; cases ha

theorem same_nil {v w : Val} (h : Value.eq v w = true) : Same (notNil v) (notNil w) := by
  cases v <;> cases w <;> first | (simp [notNil, Same]; done) | (simp [Value.eq] at h; done) | exact h

theorem get_same (find : Nat → Str → Val) : ∀ {t u : T}, Fine t → Fine u → Static t → Static u → leq t u = true → ∀ {k : Val}, WF k →
    Same (get find t k) (get find u k)
  | .map .., .map .., ht, hu, _, _, h, k, hk => by
    simp only [leq] at h
    exact lookVal_same ht hu h hk
  | .locked _ es ns f c, .locked _ es' ns' f' c', ht, hu, st, su, h, k, hk => by
    simp only [leq, Bool.and_eq_true] at h
    obtain ⟨rfl, rfl, _⟩ := st
    obtain ⟨rfl, rfl, _⟩ := su
    have := lookVal_same ht.1 hu.1 h.1 hk
    cases k <;> simp only [get] <;> try trivial
    rename_i s
    cases ha : lookVal (.str s) es <;> cases hb : lookVal (.str s) es' <;> rw [ha, hb] at this
    · trivial
    · exact this.elim
    · exact this.elim
    · exact same_nil this
  | .child o p, .child o' p', ht, hu, st, su, h, k, hk => by
    simp only [leq, Bool.and_eq_true] at h
    have hp := get_same find ht.2 hu.2 st.2 su.2 h.2 hk
    have ho := get_same find ht.1 hu.1 st.1 su.1 h.1 hk
    rw [get, get]
    cases ha : get find p k <;> cases hb : get find p' k <;> rw [ha, hb] at hp
    · exact ho
    · exact hp.elim
    · exact hp.elim
    · exact hp
  | .map .., .locked .., _, _, _, _, h, _, _ => by simp [leq] at h
  | .map .., .child .., _, _, _, _, h, _, _ => by simp [leq] at h
  | .locked .., .map .., _, _, _, _, h, _, _ => by simp [leq] at h
  | .locked .., .child .., _, _, _, _, h, _, _ => by simp [leq] at h
  | .child .., .map .., _, _, _, _, h, _, _ => by simp [leq] at h
  | .child .., .locked .., _, _, _, _, h, _, _ => by simp [leq] at h

/-- A loader without creators: its namespaces are as good as it is. -/
theorem ns_good (mk : Nat → Str → Option T) : ∀ {t : T}, Fine t → Static t → ∀ {s : Str} {v : T}, namespace' mk t s = some v → Fine v ∧ Static v
  | .map _ _, ht, st, s, v, h => by
    simp only [namespace'] at h
    split at h
    · cases h; exact ⟨ht, st⟩
    · cases h
  | .locked n es ns f c, ht, st, s, v, h => by
    rw [namespace'.eq_def] at h; dsimp only at h
    split at h
    · cases h; exact ⟨ht, st⟩
    · obtain ⟨_, hc, sn⟩ := st
      cases hl : look s ns with
      | none => simp only [hl, hc] at h; cases h
      | some t =>
        simp only [hl] at h; cases h
        exact ⟨fineNs_mem ht.2.2 _ (look_mem hl), staticNs_mem sn _ (look_mem hl)⟩
  | .child o p, ht, st, s, v, h => by
    rw [namespace'] at h
    split at h
    · cases h; exact ⟨ht, st⟩
    · cases ho : namespace' mk o s <;> cases hp : namespace' mk p s <;> rw [ho, hp] at h <;> cases h
      · exact ns_good mk ht.2 st.2 hp
      · exact ns_good mk ht.1 st.1 ho
      · have h1 := ns_good mk ht.1 st.1 ho
        have h2 := ns_good mk ht.2 st.2 hp
        exact ⟨⟨h1.1, h2.1⟩, ⟨h1.2, h2.2⟩⟩

theorem ns_same (mk : Nat → Str → Option T) : ∀ {t u : T}, Fine t → Fine u → Static t → Static u → leq t u = true → ∀ (s : Str),
    SameNs (namespace' mk t s) (namespace' mk u s)
  | .map _ _, .map _ _, ht, hu, _, _, h, s => by
    simp only [namespace']
    split
    · exact h
    · trivial
  | .locked _ es ns f c, .locked _ es' ns' f' c', ht, hu, st, su, h, s => by
    rw [namespace'.eq_def, namespace'.eq_def mk (.locked _ es' ns' f' c')]; dsimp only
    split
    · exact h
    · simp only [leq, Bool.and_eq_true, beq_iff_eq] at h
      obtain ⟨rfl, rfl, _⟩ := st
      obtain ⟨rfl, rfl, _⟩ := su
      have := look_same ht.2.1 hu.2.1 h.2.1 h.2.2 s
      cases ha : look s ns <;> cases hb : look s ns' <;> rw [ha, hb] at this <;> exact this
  | .child o p, .child o' p', ht, hu, st, su, h, s => by
    rw [namespace', namespace']
    split
    · exact h
    · simp only [leq, Bool.and_eq_true] at h
      have hp := ns_same mk ht.2 hu.2 st.2 su.2 h.2 s
      have ho := ns_same mk ht.1 hu.1 st.1 su.1 h.1 s
      cases ha : namespace' mk p s <;> cases hb : namespace' mk p' s <;> rw [ha, hb] at hp <;>
        cases hc : namespace' mk o s <;> cases hd : namespace' mk o' s <;> rw [hc, hd] at ho <;>
        first | exact ho.elim | exact hp.elim | exact ho | exact hp | skip
      show leq (.child _ _) (.child _ _) = true
      rw [leq, Bool.and_eq_true]
      exact ⟨ho, hp⟩
  | .map .., .locked .., _, _, _, _, h, _ => by simp [leq] at h
  | .map .., .child .., _, _, _, _, h, _ => by simp [leq] at h
  | .locked .., .map .., _, _, _, _, h, _ => by simp [leq] at h
  | .locked .., .child .., _, _, _, _, h, _ => by simp [leq] at h
  | .child .., .map .., _, _, _, _, h, _ => by simp [leq] at h
  | .child .., .locked .., _, _, _, _, h, _ => by simp [leq] at h

/-! ## Theorems -/

namespace Ex
def s (n : Nat) : Str := [UInt8.ofNat n]
/-- `{a: 1, b: 2}` with a namespace `x` -/
def one : T := .locked (s 1) [(.str (s 97), .int 1), (.str (s 98), .int 2)] [(s 120, .map (s 120) [(.str (s 99), .int 3)]), (s 121, .map [] [])] none none
/-- the same in another order, under another name -/
def two : T := .locked (s 2) [(.str (s 98), .int 2), (.str (s 97), .int 1)] [(s 121, .map [] []), (s 120, .map (s 7) [(.str (s 99), .int 3)])] none none

theorem one_fine : Fine one := by
  simp [one, Fine, FineNs, WF, Value.WFes, Value.eq, s]
theorem two_fine : Fine two := by
  simp [two, Fine, FineNs, WF, Value.WFes, Value.eq, s]
end Ex

/-- Equality of loaders is reflexive, symmetric and transitive. -/
theorem C105_equivalence :
    (∀ t, Fine t → leq t t = true) ∧
    (∀ t u, Fine t → Fine u → leq t u = true → leq u t = true) ∧
    (∀ t u v, Fine t → Fine u → Fine v → leq t u = true → leq u v = true → leq t v = true) := by
  refine ⟨fun t h => ?_, fun t u ht hu h => ?_, fun t u v ht hu hv h h' => ?_⟩
  · rw [leq_enc]; exact Value.laws.refl _ (fine_enc h)
  · rw [leq_enc] at h ⊢; exact Value.laws.symm _ _ (fine_enc ht) (fine_enc hu) h
  · rw [leq_enc] at h h' ⊢; exact Value.laws.trans _ _ _ (fine_enc ht) (fine_enc hu) (fine_enc hv) h h'

example : Fine Ex.one ∧ Fine Ex.two ∧ leq Ex.one Ex.two = true ∧ leq Ex.one (.child Ex.one Ex.two) = false :=
  ⟨Ex.one_fine, Ex.two_fine, by decide +kernel, by decide +kernel⟩

/-- Which loaders are equal: those of the same Go type with equal entries, the same names of namespaces and equal loaders below them; a
loader with a parent goes by its own loader and by its parent. -/
theorem C105_equal_iff (t u : T) (ht : Fine t) (hu : Fine u) :
    leq t u = true ↔
      (∃ n n' es es', t = .map n es ∧ u = .map n' es' ∧ Value.eq (.map es) (.map es') = true) ∨
      (∃ n n' es es' ns ns' f f' c c', t = .locked n es ns f c ∧ u = .locked n' es' ns' f' c' ∧ Value.eq (.map es) (.map es') = true ∧
        (∀ m, m ∈ ns.map (·.1) ↔ m ∈ ns'.map (·.1)) ∧ ∀ m a b, (m, a) ∈ ns → (m, b) ∈ ns' → leq a b = true) ∨
      (∃ o o' p p', t = .child o p ∧ u = .child o' p' ∧ leq o o' = true ∧ leq p p' = true) := by
  constructor
  · intro h
    cases t <;> cases u <;> simp only [leq, Bool.and_eq_true, beq_iff_eq] at h <;> try cases h
    · exact .inl ⟨_, _, _, _, rfl, rfl, h⟩
    · rename_i n es ns f c n' es' ns' f' c' h1 h2
      refine .inr (.inl ⟨_, _, _, _, _, _, _, _, _, _, rfl, rfl, h1, ?_, ?_⟩)
      · have hh := (leqNs_iff ns' ns).1 h2.2
        have hs : ns.map (·.1) ⊆ ns'.map (·.1) := by
          intro m hm
          obtain ⟨e, he, rfl⟩ := List.mem_map.1 hm
          obtain ⟨t'', ht'', _⟩ := hh e he
          exact List.mem_map.2 ⟨_, look_mem ht'', rfl⟩
        have hp := (List.subperm_of_subset ht.2.1 hs).perm_of_length_le (by simp [h2.1])
        exact fun m => hp.mem_iff
      · intro m a b ha hb
        have := look_same ht.2.1 hu.2.1 h2.1 h2.2 m
        rw [look_of_mem ht.2.1 ha, look_of_mem hu.2.1 hb] at this
        exact this
    · rename_i o p o' p' h1 h2
      exact .inr (.inr ⟨_, _, _, _, rfl, rfl, h1, h2⟩)
  · rintro (⟨n, n', es, es', rfl, rfl, h⟩ | ⟨n, n', es, es', ns, ns', f, f', c, c', rfl, rfl, h, hm, hl⟩ | ⟨o, o', p, p', rfl, rfl, h1, h2⟩)
    · exact h
    · simp only [leq, Bool.and_eq_true, beq_iff_eq]
      refine ⟨h, ?_, ?_⟩
      · have := (List.perm_ext_iff_of_nodup ht.2.1 hu.2.1).2 hm
        simpa using this.length_eq
      · rw [leqNs_iff]
        intro e he
        obtain ⟨e', he', hn⟩ := List.mem_map.1 ((hm e.1).1 (List.mem_map.2 ⟨e, he, rfl⟩))
        have hmem : (e.1, e'.2) ∈ ns' := by rw [← hn]; exact he'
        exact ⟨e'.2, look_of_mem hu.2.1 hmem, hl e.1 e.2 e'.2 he hmem⟩
    · simp [leq, h1, h2]

example : Fine Ex.one ∧ Fine (.locked [] [] [] none none) ∧ leq Ex.one (.locked [] [] [] none none) = false :=
  ⟨Ex.one_fine, by simp [Fine, FineNs, WF, Value.WFes], by decide +kernel⟩

/-- Equal loaders have equal hash codes. -/
theorem C105_hash (t u : T) (ht : Fine t) (hu : Fine u) (h : leq t u = true) : lhash t = lhash u := hash_leq ht hu h

example : leq (.child Ex.one Ex.two) (.child Ex.two Ex.one) = true ∧ lhash (.child Ex.one Ex.two) = lhash (.child Ex.two Ex.one) ∧
    lhash Ex.one ≠ lhash (.map [] []) := by decide +kernel

/-- Equal loaders answer alike, as long as there is no finder and no creator of namespaces: `Get` for every key, `Namespace` for every
name, and `Load` for every path.

Missing from the full claim, that equal loaders answer alike: what the finders and creators of the loaders answer
(`C105_answers_violated`). -/
theorem C105_answers_partial (find : Nat → Str → Val) (mk : Nat → Str → Option T) (t u : T) (ht : Fine t) (hu : Fine u) (st : Static t) (su : Static u)
    (h : leq t u = true) :
    (∀ k, WF k → Same (get find t k) (get find u k)) ∧
    (∀ n, SameNs (namespace' mk t n) (namespace' mk u n)) ∧
    ∀ path, Same (walk find mk t path) (walk find mk u path) := by
  refine ⟨fun k hk => get_same find ht hu st su h hk, fun n => ns_same mk ht hu st su h n, fun path => ?_⟩
  induction path generalizing t u with
  | nil => trivial
  | cons p ps ih =>
    cases ps with
    | nil => exact get_same find ht hu st su h trivial
    | cons q qs =>
      rw [walk, walk]
      · have := ns_same mk ht hu st su h p
        cases ha : namespace' mk t p <;> cases hb : namespace' mk u p <;> rw [ha, hb] at this
        · trivial
        · exact this.elim
        · exact this.elim
        · have g1 := ns_good mk ht st ha
          have g2 := ns_good mk hu su hb
          exact ih _ _ g1.1 g2.1 g1.2 g2.2 this
      · simp
      · simp

example : Static Ex.one ∧ Static Ex.two ∧ leq Ex.one Ex.two = true ∧
    (walk (fun _ _ => .nil) (fun _ _ => none) Ex.one [Ex.s 120, Ex.s 99]).map (Value.eq (.int 3)) = some true :=
  ⟨by simp [Ex.one, Static, StaticNs], by simp [Ex.two, Static, StaticNs], by decide +kernel, by decide +kernel⟩

/-- Two loaders with different finders, and nothing loaded yet, are equal.  So are their hash codes.  But the same key gets different answers:
and after that they are no longer equal. -/
theorem C105_answers_violated : ∃ (find : Nat → Str → Val) (t u : T), Fine t ∧ Fine u ∧ leq t u = true ∧ lhash t = lhash u ∧
    (get find t (.str (Ex.s 97))).map (Value.eq (.int 1)) = some true ∧ (get find u (.str (Ex.s 97))).map (Value.eq (.int 2)) = some true :=
  ⟨fun i _ => .int (BitVec.ofNat 64 (i + 1)), .locked [] [] [] (some 0) none, .locked [] [] [] (some 1) none, by simp [Fine, FineNs, WF, Value.WFes],
    by simp [Fine, FineNs, WF, Value.WFes], by decide +kernel, by decide +kernel, by decide +kernel, by decide +kernel⟩

/-- The name of a loader doesn't matter to `Equals`; and a loader that has only entries is not equal to one that could find more but holds
the same and answers the same. -/
theorem C105_name_violated :
    (∃ t u : T, Fine t ∧ Fine u ∧ leq t u = true ∧ name t ≠ name u) ∧
    ∃ t u : T, Fine t ∧ Fine u ∧ Static t ∧ Static u ∧ leq t u = false ∧ name t = name u ∧
      ∀ find k, get find t (.str k) = get find u (.str k) :=
  ⟨⟨Ex.one, Ex.two, Ex.one_fine, Ex.two_fine, by decide +kernel, by decide +kernel⟩,
    .map [] [], .locked [] [] [] none none, by simp [Fine, FineNs, WF, Value.WFes], by simp [Fine, FineNs, WF, Value.WFes],
    by simp [Static], by simp [Static, StaticNs], by decide +kernel, rfl, fun _ _ => rfl⟩

/-- The map that a loader is turned into makes, with the same type, a loader with the name of the first that is equal to it, has the same
hash code, and holds what the first one held.  The finder and the creator of namespaces are gone. -/
theorem C105_round_trip (t : T) (ht : Fine t) :
    ∃ u, newLike t (initMap t) = some u ∧ leq u t = true ∧ leq t u = true ∧ lhash u = lhash t ∧ name u = name t ∧
      (Static t → u = t) ∧
      ∀ n es ns f c, t = .locked n es ns f c → u = .locked n es ns none none := by
  have hr := C105_equivalence.1 t ht
  cases t with
  | map n es => exact ⟨_, rfl, hr, hr, rfl, rfl, fun _ => rfl, fun _ _ _ _ _ h => by cases h⟩
  | locked n es ns f c =>
    refine ⟨.locked n es ns none none, rfl, ?_, ?_, ?_, rfl, ?_, ?_⟩
    · simpa [leq] using hr
    · simpa [leq] using hr
    · simp [lhash]
    · rintro ⟨rfl, rfl, _⟩; rfl
    · intro _ _ _ _ _ h; cases h; rfl
  | child o p => exact ⟨_, rfl, hr, hr, rfl, rfl, fun _ => rfl, fun _ _ _ _ _ h => by cases h⟩

example : Fine Ex.one ∧ (newMut (initMap Ex.one)).isSome ∧ Fine (.child Ex.one Ex.two) := ⟨Ex.one_fine, rfl, Ex.one_fine, Ex.two_fine⟩

/-- What the three types refuse with a failed assertion: a map without one of the keys, or with something else below it. -/
theorem C105_new_iff (m : IM) :
    ((newMap m).isSome ↔ (∃ n, m.get .name = some (.str n)) ∧ ∃ es, m.get .entries = some (.map es)) ∧
    ((newMut m).isSome ↔ (∃ n, m.get .name = some (.str n)) ∧ (∃ es, m.get .entries = some (.map es)) ∧
      ∃ ns, m.get .namespaces = some (.nss ns)) ∧
    ((newChild m).isSome ↔ (∃ o, m.get .loader = some (.loader o)) ∧ ∃ p, m.get .parent = some (.loader p)) := by
  refine ⟨?_, ?_, ?_⟩
  · unfold newMap
    cases h1 : m.get .name <;> cases h2 : m.get .entries <;> simp <;> (rename_i a b; cases a <;> cases b <;> simp)
  · unfold newMut
    rcases h1 : m.get .name with _ | ⟨_ | _ | _ | _⟩ <;> rcases h2 : m.get .entries with _ | ⟨_ | _ | _ | _⟩ <;>
      rcases h3 : m.get .namespaces with _ | ⟨_ | _ | _ | _⟩ <;> simp
  · unfold newChild
    cases h1 : m.get .loader <;> cases h2 : m.get .parent <;> simp <;> (rename_i a b; cases a <;> cases b <;> simp)

example : (newMap [(.entries, .map [])]).isSome = false ∧ (newMut (initMap (.map [] []))).isSome = false ∧
    (newMap (initMap Ex.one)).isSome = true := by decide

end Verif.Conc.LoaderVal
