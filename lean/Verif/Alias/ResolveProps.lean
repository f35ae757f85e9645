import Verif.Alias.ResolveEnds
/-!
# C110: resolving the aliases in types

`get` is what the names stand for, `H` the types as they are in memory before.
-/
set_option autoImplicit false
namespace Verif.Alias.Res

/-! ## The example: `files=map[string](string|files)`, at 4; it is added under its name.  `data=string|[]data`, at 5, was known before.  The text
`{files, data, [](files)}` is at 8. -/

def exHeap : Heap := fun a =>
  match a with
  | 0 => .leaf false
  | 1 => .leaf false
  | 2 => .alias "files"
  | 3 => .anyOf [1, 2]
  | 4 => .map 1 3
  | 5 => .anyOf [1, 6]
  | 6 => .arr 5
  | 7 => .arr 2
  | 8 => .tuple [4, 5, 7]
  | _ => .leaf false

def exGet : Name → Option Nat := fun n => if n = "files" then some 4 else if n = "data" then some 5 else none

theorem ex_wf : WF exHeap where
  any := rfl
  exactArr a v h := by unfold exHeap at h; split at h <;> cases h
  exactMap a v h := by unfold exHeap at h; split at h <;> cases h

theorem ex_noChain : NoChain exGet exHeap := by
  intro n q h
  unfold exGet at h
  rintro ⟨m, hm⟩
  split at h
  · cases h; cases hm
  · split at h
    · cases h; cases hm
    · cases h

theorem ex_closed : Closed exGet exHeap (· ∈ [0, 1, 2, 3, 4, 5, 6, 7, 8]) where
  parts := by
    have : ∀ a ∈ [0, 1, 2, 3, 4, 5, 6, 7, 8], ∀ x ∈ (exHeap a).parts, x ∈ [0, 1, 2, 3, 4, 5, 6, 7, 8] := by decide
    exact this
  names a n q ha hn hg := by
    unfold exGet at hg
    split at hg
    · cases hg; decide
    · split at hg
      · cases hg; decide
      · cases hg

/-! ## Calls return -/

/-- **C110, first part.**  If what there is to go through is finite, no name stands for a name, and arrays and maps in exact types do not contain themselves,
then `Replace` returns or panics, however the types contain each other. -/
theorem C110_returns_partial (get : Name → Option Nat) (H : Heap) (past : List Heap) (p : Nat) (L : List Nat) (hp : p ∈ L) (hL : Closed get H (· ∈ L))
    (hwf : WF H) (hc : NoChain get H) (hv : ValuesOrdered get H) : ∃ n₀, ∀ n, n₀ ≤ n → replace get n ⟨H, past⟩ p ≠ .more := by
  obtain ⟨r, K, hK, hr⟩ := hv
  have hcl : Closed get H (· ∈ anyT :: L) := by
    refine ⟨fun a ha x hx => ?_, fun a n q ha hn hg => ?_⟩
    · rcases List.mem_cons.mp ha with rfl | ha
      · rw [hwf.any] at hx; simp [Node.parts] at hx
      · exact List.mem_cons_of_mem _ (hL.parts a ha x hx)
    · rcases List.mem_cons.mp ha with rfl | ha
      · rw [hwf.any] at hn; cases hn
      · exact List.mem_cons_of_mem _ (hL.names a n q ha hn hg)
  refine ⟨enough K (anyT :: L).length (K + 1), fun n hn => ?_⟩
  refine replace_ends hwf hc (R := (· ∈ anyT :: L)) (by simp) hcl (anyT :: L) (fun a h => h) hK hr n [] ⟨H, past⟩ p ?_ (by simp [hp]) ?_
  · have : (fun z : Nat => z ∈ ([] : List Nat)) = fun _ => False := by funext z; simp
    rw [this]; exact ok_start
  · refine Nat.le_trans ?_ hn
    unfold enough
    have h1 : ((anyT :: L).filter fun x => decide (x ∉ ([] : List Nat))).length ≤ (anyT :: L).length := List.length_filter_le _ _
    have h2 := Nat.mul_le_mul_right (K + 4) h1
    have h3 := hK p
    split <;> omega

example : ∃ n₀, ∀ n, n₀ ≤ n → replace exGet n ⟨exHeap, []⟩ 8 ≠ .more :=
  C110_returns_partial exGet exHeap [] 8 [0, 1, 2, 3, 4, 5, 6, 7, 8] (by decide) ex_closed ex_wf ex_noChain
    ⟨fun _ => 0, 0, fun _ => Nat.le_refl 0, fun a b c h => by
      unfold exHeap at h; split at h <;> exact h.elim⟩

/-! ## What is resolved -/

/-- **C110.**  When the types have been resolved, in the order of `update` (and what the text says before them), then every type that can be reached from
them has in the place of each alias the type that its name stands for, all those names are known, and nothing else in it has changed; types
elsewhere have only such changes. -/
theorem C110_resolved (get : Name → Option Nat) (H : Heap) (past : List Heap) (n : Nat) (ts qs : List Nat) (s' : St) (hwf : WF H) (hc : NoChain get H)
    (h : replaceAll get n ⟨H, past⟩ ts = .ret s' qs) :
    qs = ts.map (standsFor get H) ∧ (∀ t m, t ∈ ts → H t = .alias m → ∃ q, get m = some q) ∧
    (∀ t a, t ∈ ts → Reached H t a → Resolved get H s'.heap a ∧ ∀ x m, x ∈ (H a).kids → H x = .alias m → ∃ q, get m = some q) ∧
    ∀ a, Between get H s'.heap a := by
  have hcl : Closed get H fun _ => True := ⟨fun _ _ _ _ => trivial, fun _ _ _ _ _ _ => trivial⟩
  have hp := slice_post (R := fun _ => True) (replace_post hwf hc trivial hcl n) ts ⟨H, past⟩ (fun _ => False) ok_start fun _ _ => trivial
  unfold replaceAll at h
  rw [h] at hp
  obtain ⟨ok, g, k, m, f, t⟩ := hp
  refine ⟨g, fun t m ht hm => k t ht m hm, fun t a ht hr => ?_, fun a => (ok a).2 not_false⟩
  have hf := f t ht a (.of_reached hr)
  refine ⟨?_, fun x m hx hm => hf.2 x hx m hm⟩
  unfold Resolved
  rw [((ok a).2 not_false).eq, hf.1]

/-- After the text and `files` have been resolved, `files` contains itself. -/
example : ∃ s' qs, replaceAll exGet 9 ⟨exHeap, []⟩ [8, 4] = .ret s' qs ∧ s'.heap 3 = .anyOf [1, 4] ∧ s'.heap 7 = .arr 4 ∧ s'.heap 8 = .tuple [4, 5, 7] :=
  ⟨_, _, rfl, rfl, rfl, rfl⟩

/-- **C110: no aliases are left.**  If each name stands for one of the types that are resolved or for a type without aliases in it, and if there are no
aliases in function types and types of sensitive values, then no alias is in any of the results. -/
theorem C110_no_alias_partial (get : Name → Option Nat) (H : Heap) (past : List Heap) (n : Nat) (ts qs : List Nat) (s' : St) (hwf : WF H) (hc : NoChain get H)
    (ho : OpaqueClean H) (hg : ∀ m q, get m = some q → q ∈ ts ∨ Clean H q)
    (h : replaceAll get n ⟨H, past⟩ ts = .ret s' qs) : ∀ q, q ∈ qs → Clean s'.heap q := by
  obtain ⟨hq, hkn, hr, hb⟩ := C110_resolved get H past n ts qs s' hwf hc h
  -- the types that are fine: not an alias, and reached or clean before
  let P : Nat → Prop := fun a => ¬ IsAlias (H a) ∧ ((∃ t, t ∈ ts ∧ Reached H t a) ∨ Clean H a)
  have hclean : ∀ a, Clean H a → s'.heap a = H a ∧ ∀ x, x ∈ (H a).parts → Clean H x := by
    intro a ha
    have hparts : ∀ x, x ∈ (H a).parts → Clean H x := by
      intro x hx b hb
      refine ha b ?_
      clear hr
      induction hb with
      | self => exact .part (.self a) hx
      | part _ hc ih => exact .part ih hc
    refine ⟨?_, hparts⟩
    have hbt := hb a
    rw [hbt.eq]
    have : (s'.heap a).kids = (H a).kids := by
      have hk := hbt.kids
      have hall : ∀ x, x ∈ (H a).kids → standsFor get H x = x := by
        intro x hx
        refine stands_nonalias (hparts x ?_ x (.self x))
        unfold Node.kids at hx
        split at hx
        · simp at hx
        · exact hx
      generalize (H a).kids = l at hk hall
      generalize (s'.heap a).kids = m at hk
      clear * - hk hall
      induction hk with
      | nil => rfl
      | cons hxy _ ih =>
        rw [ih fun x hx => hall x (by simp [hx])]
        rw [hall _ (by simp)] at hxy
        rcases hxy with h | h <;> rw [h]
    rw [this, withKids_kids]
  have hstep : ∀ a, P a → ∀ y, y ∈ (s'.heap a).parts → P y := by
    rintro a ⟨hna, hra | hca⟩ y hy
    · obtain ⟨t, ht, hra⟩ := hra
      have hres := (hr t a ht hra).1
      unfold Resolved at hres
      by_cases hop : ∃ ps, H a = .opaque ps
      · obtain ⟨ps, hop⟩ := hop
        rw [hop] at hres
        rw [hres] at hy
        have := ho a ps hop y hy
        exact ⟨this y (.self y), Or.inr this⟩
      · have hyk : y ∈ (s'.heap a).kids := by
          rw [kids_eq_parts fun ps hps => ?_]
          · exact hy
          · rw [hres] at hps
            exact hop ⟨ps, (same_leaf (by simp [Fits])).1.2 ps hps⟩
        rw [hres, kids_withKids (by simp [Fits])] at hyk
        obtain ⟨x, hx, rfl⟩ := List.mem_map.mp hyk
        by_cases hxa : IsAlias (H x)
        · obtain ⟨m, hm⟩ := hxa
          obtain ⟨q, hq⟩ := (hr t a ht hra).2 x m hx hm
          rw [stands_alias hm hq]
          refine ⟨hc m q hq, ?_⟩
          rcases hg m q hq with h | h
          · exact Or.inl ⟨q, h, .self q⟩
          · exact Or.inr h
        · rw [stands_nonalias hxa]
          exact ⟨hxa, Or.inl ⟨t, ht, .part hra hx⟩⟩
    · obtain ⟨he, hp⟩ := hclean a hca
      rw [he] at hy
      have := hp y hy
      exact ⟨this y (.self y), Or.inr this⟩
  have hP : ∀ a, P a → ∀ b, Within s'.heap a b → P b := by
    intro a ha b hw
    induction hw with
    | self => exact ha
    | part _ hy ih => exact hstep _ ih _ hy
  intro q hqm b hw
  have hPq : P q := by
    rw [hq] at hqm
    obtain ⟨t, ht, rfl⟩ := List.mem_map.mp hqm
    by_cases hta : IsAlias (H t)
    · obtain ⟨m, hm⟩ := hta
      obtain ⟨q, hgq⟩ := hkn t m ht hm
      rw [stands_alias hm hgq]
      refine ⟨hc m q hgq, ?_⟩
      rcases hg m q hgq with h | h
      · exact Or.inl ⟨q, h, .self q⟩
      · exact Or.inr h
    · rw [stands_nonalias hta]
      exact ⟨hta, Or.inl ⟨t, ht, .self t⟩⟩
  have hPb := hP q hPq b hw
  rintro ⟨m, hm⟩
  have hbt := hb b
  rw [hbt.eq] at hm
  exact hPb.1 ⟨m, (alias_withKids hbt.len m).1 hm⟩

theorem ex_opaque : OpaqueClean exHeap := by
  intro a ps h
  unfold exHeap at h
  split at h <;> cases h

theorem ex_clean : Clean exHeap 5 := by
  intro b hb
  have : b ∈ [1, 5, 6] := by
    induction hb with
    | self => decide
    | part _ hx ih =>
      have : ∀ a ∈ [1, 5, 6], ∀ x ∈ (exHeap a).parts, x ∈ [1, 5, 6] := by decide
      exact this _ ih _ hx
  rintro ⟨m, hm⟩
  simp only [List.mem_cons, List.not_mem_nil, or_false] at this
  rcases this with rfl | rfl | rfl <;> cases hm

example : ∃ s' qs, replaceAll exGet 9 ⟨exHeap, []⟩ [8, 4] = .ret s' qs ∧ ∀ q, q ∈ qs → Clean s'.heap q :=
  ⟨_, _, rfl, C110_no_alias_partial exGet exHeap [] 9 [8, 4] _ _ ex_wf ex_noChain ex_opaque (fun m q h => by
    unfold exGet at h
    split at h
    · cases h; exact Or.inl (by decide)
    · split at h
      · cases h; exact Or.inr ex_clean
      · cases h) rfl⟩

/-! ## Names that are not known -/

/-- **C110: an unknown name.**  If an alias with a name that stands for nothing can be reached, then `Replace` does not return: it panics (or goes on for ever,
which `C110_returns_partial` excludes). -/
theorem C110_unknown (get : Name → Option Nat) (H : Heap) (past : List Heap) (n : Nat) (ts : List Nat) (hwf : WF H) (hc : NoChain get H) (t a : Nat) (m : Name)
    (ht : t ∈ ts) (hr : Reached H t a) (ha : H a = .alias m) (hm : get m = none) (s' : St) (qs : List Nat) :
    replaceAll get n ⟨H, past⟩ ts ≠ .ret s' qs := by
  intro h
  obtain ⟨_, hkn, hres, _⟩ := C110_resolved get H past n ts qs s' hwf hc h
  cases hr with
  | self =>
    obtain ⟨q, hq⟩ := hkn t m ht ha
    rw [hm] at hq; cases hq
  | part hb hx =>
    obtain ⟨q, hq⟩ := (hres t _ ht hb).2 a m hx ha
    rw [hm] at hq; cases hq

example (n : Nat) (s' : St) (qs : List Nat) : replaceAll (fun _ => none) n ⟨exHeap, []⟩ [8] ≠ .ret s' qs :=
  C110_unknown (fun _ => none) exHeap [] n [8] ex_wf (fun _ _ h => by cases h) 8 2 "files" (by simp)
    (.part (.part (.self 8) (show 7 ∈ _ by decide)) (by decide)) rfl rfl s' qs

/-- **C110: all names known.**  If all the names that can be reached, by way of other names too, stand for types, and the keys of structs are of one value once
they are resolved, then `Replace` does not panic. -/
theorem C110_known (get : Name → Option Nat) (H : Heap) (past : List Heap) (n p : Nat) (S : Nat → Prop) (hwf : WF H) (hc : NoChain get H)
    (hs : Safe get H S) (hp : S p) (s' : St) : replace get n ⟨H, past⟩ p ≠ .panic s' := by
  intro h
  have hcl : Closed get H fun _ => True := ⟨fun _ _ _ _ => trivial, fun _ _ _ _ _ _ => trivial⟩
  have hpost := replace_post (R := fun _ => True) hwf hc trivial hcl n ⟨H, past⟩ p (fun _ => False) ok_start trivial
  rw [h] at hpost
  have hs' : Safe get H fun a => S a ∨ a = anyT :=
    { parts := fun a ha x hx => by
        rcases ha with ha | rfl
        · exact Or.inl (hs.parts a ha x hx)
        · rw [hwf.any] at hx; simp [Node.parts] at hx
      names := fun a n q ha hn hg => by
        rcases ha with ha | rfl
        · exact Or.inl (hs.names a n q ha hn hg)
        · rw [hwf.any] at hn; cases hn
      known := fun a n ha hn => by
        rcases ha with ha | rfl
        · exact hs.known a n ha hn
        · rw [hwf.any] at hn; cases hn
      keys := fun a es ha hn => by
        rcases ha with ha | rfl
        · exact hs.keys a es ha hn
        · rw [hwf.any] at hn; cases hn }
  obtain ⟨t, ht, hn⟩ := hpost.1 _ (Or.inr rfl) hs'
  rw [List.mem_singleton.mp ht] at hn
  exact hn (Or.inl hp)

example (n : Nat) (s' : St) : replace exGet n ⟨exHeap, []⟩ 8 ≠ .panic s' :=
  C110_known exGet exHeap [] n 8 (· ∈ [0, 1, 2, 3, 4, 5, 6, 7, 8]) ex_wf ex_noChain
    { toClosed := ex_closed
      known := fun a m _ h => by unfold exHeap at h; split at h <;> cases h; exact ⟨4, rfl⟩
      keys := fun a es _ h => by unfold exHeap at h; split at h <;> cases h } (by decide) s'

/-! ## What others see -/

/-- **C110: types that are known already.**  Types without aliases in them are after the call as they were before, if it returns and if it panics. -/
theorem C110_published (get : Name → Option Nat) (H : Heap) (past : List Heap) (n p : Nat) (P : Nat → Prop) (hwf : WF H) (hc : NoChain get H)
    (hP : Closed get H P) (hPa : ∀ a, P a → ¬ IsAlias (H a)) (hPk : ∀ a es, P a → H a = .struct es → ∀ e, e ∈ es → isExact (H e.1) = true)
    (s' : St) (h : replace get n ⟨H, past⟩ p = .panic s' ∨ ∃ q, replace get n ⟨H, past⟩ p = .ret s' q) :
    ∀ a, P a → s'.heap a = H a := by
  have hcl : Closed get H fun _ => True := ⟨fun _ _ _ _ => trivial, fun _ _ _ _ _ _ => trivial⟩
  have hpost := replace_post (R := fun _ => True) hwf hc trivial hcl n ⟨H, past⟩ p (fun _ => False) ok_start trivial
  have hsafe : Safe get H fun a => P a ∨ a = anyT :=
    { parts := fun a ha x hx => by
        rcases ha with ha | rfl
        · exact Or.inl (hP.parts a ha x hx)
        · rw [hwf.any] at hx; simp [Node.parts] at hx
      names := fun a n q ha hn hg => by
        rcases ha with ha | rfl
        · exact Or.inl (hP.names a n q ha hn hg)
        · rw [hwf.any] at hn; cases hn
      known := fun a n ha hn => by
        rcases ha with ha | rfl
        · exact absurd ⟨n, hn⟩ (hPa a ha)
        · rw [hwf.any] at hn; cases hn
      keys := fun a es ha hn e he => by
        rcases ha with ha | rfl
        · have : P e.1 := hP.parts a ha e.1 (by
            rw [hn]; exact List.mem_flatMap.mpr ⟨e, he, by simp⟩)
          rw [stands_nonalias (hPa _ this)]
          exact hPk a es ha hn e he
        · rw [hwf.any] at hn; cases hn }
  have key : ∀ a, P a → Between get H s'.heap a → s'.heap a = H a := by
    intro a ha hbt
    rw [hbt.eq]
    have : (s'.heap a).kids = (H a).kids := by
      have hk := hbt.kids
      have hall : ∀ x, x ∈ (H a).kids → standsFor get H x = x := by
        intro x hx
        refine stands_nonalias (hPa x (hP.parts a ha x ?_))
        unfold Node.kids at hx
        split at hx
        · simp at hx
        · exact hx
      generalize (H a).kids = l at hk hall
      generalize (s'.heap a).kids = m at hk
      clear * - hk hall
      induction hk with
      | nil => rfl
      | cons hxy _ ih =>
        rw [ih fun x hx => hall x (by simp [hx])]
        rw [hall _ (by simp)] at hxy
        rcases hxy with h | h <;> rw [h]
    rw [this, withKids_kids]
  intro a ha
  refine key a ha ?_
  rcases h with h | ⟨q, h⟩
  · rw [h] at hpost
    obtain ⟨_, ⟨B', ok, _, hB⟩, _⟩ := hpost
    exact (ok a).2 fun hb => hB _ (Or.inr rfl) hsafe a (Or.inl ha) hb
  · rw [h] at hpost
    exact (hpost.1 a).2 not_false

/-- **C110: at every moment.**  In every state on the way, a type is as it was but for replaced aliases, or it is empty; and types that cannot be reached, by way
of names too, are not touched at any moment. -/
theorem C110_meanwhile (get : Name → Option Nat) (H : Heap) (past : List Heap) (n p : Nat) (R : Nat → Prop) (hwf : WF H) (hc : NoChain get H)
    (hR : Closed get H R) (hp : R p) (s' : St) (h : replace get n ⟨H, past⟩ p = .panic s' ∨ ∃ q, replace get n ⟨H, past⟩ p = .ret s' q) :
    ∃ on, s'.past = past ++ on ∧ ∀ G, G ∈ on ++ [s'.heap] →
      (∀ a, Between get H G a ∨ Empty H G a) ∧ ∀ a, ¬ R a → G a = H a := by
  have hcl : Closed get H fun a => R a ∨ a = anyT := by
    refine ⟨fun a ha x hx => ?_, fun a n q ha hn hg => ?_⟩
    · rcases ha with ha | rfl
      · exact Or.inl (hR.parts a ha x hx)
      · rw [hwf.any] at hx; simp [Node.parts] at hx
    · rcases ha with ha | rfl
      · exact Or.inl (hR.names a n q ha hn hg)
      · rw [hwf.any] at hn; cases hn
  have hpost := replace_post (R := fun a => R a ∨ a = anyT) hwf hc (Or.inr rfl) hcl n ⟨H, past⟩ p (fun _ => False) ok_start (Or.inl hp)
  have hok : ∀ G B, Ok get H G B → ∀ a, Between get H G a ∨ Empty H G a := by
    intro G B ok a
    by_cases hb : B a
    · obtain ⟨h1, h2⟩ := (ok a).1 hb
      right
      unfold Empty
      cases h0 : H a <;> rw [h0] at h1 h2 <;> first | exact h2 | (simp [isBox] at h1)
    · exact Or.inl ((ok a).2 hb)
  have hany : ∀ G, (∀ a, Between get H G a ∨ Empty H G a) → G anyT = H anyT := by
    intro G hG
    rcases hG anyT with ⟨ys, _, he⟩ | h
    · rw [he, hwf.any]; rfl
    · unfold Empty at h; rw [hwf.any] at h; exact h.elim
  have hft : (∃ B, Ok get H s'.heap B) ∧ Trace get H (fun a => R a ∨ a = anyT) ⟨H, past⟩ s' := by
    rcases h with h | ⟨q, h⟩
    · rw [h] at hpost
      exact ⟨⟨_, hpost.2.1.choose_spec.1⟩, hpost.2.2⟩
    · rw [h] at hpost
      exact ⟨⟨_, hpost.1⟩, hpost.2.2.2.2.2⟩
  obtain ⟨⟨B, ok⟩, ⟨gs, hgs, hall⟩, hlast⟩ := hft
  have hsplit : ∀ G, (∀ a, Between get H G a ∨ Empty H G a) → (∀ a, ¬ (R a ∨ a = anyT) → G a = H a) → ∀ a, ¬ R a → G a = H a := by
    intro G h1 h2 a ha
    by_cases h0 : a = anyT
    · rw [h0]; exact hany G h1
    · exact h2 a fun h => h.elim ha h0
  refine ⟨gs, hgs, fun G hG => ?_⟩
  rcases List.mem_append.mp hG with hG | hG
  · obtain ⟨⟨B', ok'⟩, hfr⟩ := hall G hG
    exact ⟨hok G B' ok', hsplit G (hok G B' ok') hfr⟩
  · rw [List.mem_singleton.mp hG]
    exact ⟨hok _ B ok, hsplit _ (hok _ B ok) hlast⟩

/-- `[](files)` leaves `data` alone at every moment. -/
example : ∃ s' on, replace exGet 9 ⟨exHeap, []⟩ 7 = .ret s' 7 ∧ s'.past = on ∧ ∀ G, G ∈ on → G 5 = .anyOf [1, 6] := by
  obtain ⟨on, h1, h2⟩ := C110_meanwhile exGet exHeap [] 9 7 (· ∈ [0, 1, 2, 3, 4, 7]) ex_wf ex_noChain
    { parts := by
        have : ∀ a ∈ [0, 1, 2, 3, 4, 7], ∀ x ∈ (exHeap a).parts, x ∈ [0, 1, 2, 3, 4, 7] := by decide
        exact this
      names := fun a n q ha hn hg => by
        have : n = "files" := by unfold exHeap at hn; split at hn <;> cases hn; rfl
        subst this; cases hg; decide } (by decide) _ (Or.inr ⟨7, rfl⟩)
  exact ⟨_, on, rfl, h1, fun G hG => (h2 G (by simp [hG])).2 5 (by decide)⟩

/-- After the text `{files, data, [](files)}` has been resolved, `data` is as it was. -/
example : ∃ s', replace exGet 9 ⟨exHeap, []⟩ 8 = .ret s' 8 ∧ ∀ a, a ∈ [1, 5, 6] → s'.heap a = exHeap a :=
  ⟨_, rfl, C110_published exGet exHeap [] 9 8 (· ∈ [1, 5, 6]) ex_wf ex_noChain
    { parts := by
        have : ∀ a ∈ [1, 5, 6], ∀ x ∈ (exHeap a).parts, x ∈ [1, 5, 6] := by decide
        exact this
      names := fun a n q ha hn hg => by
        simp only [List.mem_cons, List.not_mem_nil, or_false] at ha
        rcases ha with rfl | rfl | rfl <;> cases hn }
    (fun a ha => by
      simp only [List.mem_cons, List.not_mem_nil, or_false] at ha
      rintro ⟨m, hm⟩
      rcases ha with rfl | rfl | rfl <;> cases hm)
    (fun a es ha h => by
      simp only [List.mem_cons, List.not_mem_nil, or_false] at ha
      rcases ha with rfl | rfl | rfl <;> cases h) _ (Or.inr ⟨8, rfl⟩)⟩

/-! ## What the code does not keep -/

/-- **C110 is violated: others see types without their parts.**  While the text `{files, data, [](files)}` is resolved there is a moment at which `data`, which was known
before and which any goroutine may be using, has no operands, so that nothing is an instance of it; at another its arrays are arrays of anything. -/
theorem C110_seen_violated : ∃ s', replace exGet 9 ⟨exHeap, []⟩ 8 = .ret s' 8 ∧ exHeap 5 = .anyOf [1, 6] ∧
    (∃ G, G ∈ s'.past ∧ G 5 = .anyOf []) ∧ ∃ G, G ∈ s'.past ∧ G 6 = .arr anyT := by
  refine ⟨_, rfl, rfl, ?_, ?_⟩
  · exact ⟨_, List.mem_of_getElem? (i := 7) rfl, rfl⟩
  · exact ⟨_, List.mem_of_getElem? (i := 8) rfl, rfl⟩

/-- `x=sensitive[x]`: 2 is the alias `x`, 3 the type of sensitive values. -/
def sensHeap : Heap := fun a =>
  match a with
  | 2 => .alias "x"
  | 3 => .opaque [2]
  | _ => .leaf false

/-- **C110 is violated: aliases in function types and types of sensitive values stay.**  For `x=sensitive[x]` the call returns without an error, and the alias is
still in the type.  (It then is the type of the string "x".) -/
theorem C110_opaque_violated : ∃ s', replaceAll (fun n => if n = "x" then some 3 else none) 9 ⟨sensHeap, []⟩ [3] = .ret s' [3] ∧ ¬ Clean s'.heap 3 :=
  ⟨_, rfl, fun h => h 2 (.part (.self 3) (by decide)) ⟨"x", rfl⟩⟩

/-- 3 is the type of an array, at 2, that contains itself. -/
def loopHeap : Heap := fun a =>
  match a with
  | 2 => .array [2]
  | 3 => .exactArr 2
  | _ => .leaf false

/-- **C110 is violated: an array that contains itself.**  When its type is given a name then the call does not return. -/
theorem C110_endless_violated (n : Nat) (past : List Heap) : replace (fun _ => none) n ⟨loopHeap, past⟩ 3 = .more := by
  have h : ∀ n past, replace (fun _ => none) n ⟨loopHeap, past⟩ 2 = .more := by
    intro n
    induction n with
    | zero => intro _; rfl
    | succ n ih =>
      intro past
      show ((resolveCells (replace (fun _ => none) n) 2 0 1 ⟨loopHeap, past⟩).bind fun s _ => .ret s 2) = .more
      rw [resolveCells]
      show (((replace (fun _ => none) n ⟨loopHeap, past⟩ 2).bind _).bind _) = .more
      rw [ih]; rfl
  cases n with
  | zero => rfl
  | succ n =>
    show (((replace (fun _ => none) n ⟨loopHeap, past⟩ 2).bind _).bind _) = .more
    rw [h]; rfl

/-- **C110 is violated: a call that fails.**  `Replace` of `[]x`, where nothing has the name `x`, panics, and the type is `[]any` from then on. -/
theorem C110_failed_violated : ∃ s', replace (fun _ => none) 9 ⟨exHeap, []⟩ 7 = .panic s' ∧ exHeap 7 = .arr 2 ∧ s'.heap 7 = .arr anyT :=
  ⟨_, rfl, rfl, rfl⟩

end Verif.Alias.Res
