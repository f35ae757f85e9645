import Verif.Conc.Naming
/-!
# C89: absolute names of loaders
-/
set_option autoImplicit false
set_option linter.unusedVariables false
namespace Verif.Conc.Tree
open Verif.Value (Val Str)

/-- all loaders that it is made of have the absolute name -/
def At (E : Env) (h : Older E) (s : Str) : L → Prop
  | .base i => absoluteOf E h i = s
  | .child own parent => At E h s own ∧ At E h s parent

theorem At.name {E : Env} {h : Older E} {s : Str} : ∀ {l : L}, At E h s l → absoluteName E h l = s
  | .base _, ha => ha
  | .child own _, ha => At.name (l := own) ha.1

theorem absoluteOf_none {E : Env} {h : Older E} {i : Nat} (hp : E.parentNs i = none) : absoluteOf E h i = 47 :: E.name i := by
  rw [absoluteOf]
  split
  · rfl
  · rename_i p hq; rw [hp] at hq; cases hq

theorem absoluteOf_some {E : Env} {h : Older E} {i p : Nat} (hp : E.parentNs i = some p) :
    absoluteOf E h i = if absoluteOf E h p ≠ [47] then absoluteOf E h p ++ 47 :: E.name i else 47 :: E.name i := by
  rw [absoluteOf]
  split
  · rename_i hq; rw [hp] at hq; cases hq
  · rename_i q hq
    rw [hp] at hq
    cases hq
    rfl

theorem root_at {E : Env} {h : Older E} : ∀ {l : L}, Root E l → At E h [47] l
  | .base i, hr => by
    show absoluteOf E h i = [47]
    rw [absoluteOf_none hr.2, hr.1]
  | .child _ _, hr => ⟨root_at hr.1, root_at hr.2⟩

/-- the absolute name of a namespace, from that of the loader -/
def below (s p : Str) : Str := if s ≠ [47] then s ++ 47 :: p else 47 :: p

theorem namespace_at {E : Env} {h : Older E} (hw : WellNamed E) {s p : Str} (hp : p ≠ []) : ∀ {l l' : L}, At E h s l → namespace' E l p = some l' →
    At E h (below s p) l'
  | .base i, l', ha, hn => by
    rw [namespace', if_neg hp, Option.map_eq_some_iff] at hn
    obtain ⟨j, hj, rfl⟩ := hn
    obtain ⟨h1, h2⟩ := hw i p j hj
    show absoluteOf E h j = _
    rw [absoluteOf_some h2, h1, show absoluteOf E h i = s from ha]
    rfl
  | .child own parent, l', ha, hn => by
    rw [namespace', if_neg hp] at hn
    dsimp only at hn
    split at hn
    · exact namespace_at hw hp ha.2 hn
    · rename_i v hv hpv
      cases hn
      exact namespace_at hw hp ha.1 hv
    · rename_i v pv hv hpv
      cases hn
      exact ⟨namespace_at hw hp ha.1 hv, namespace_at hw hp ha.2 hpv⟩

theorem namespaces_at {E : Env} {h : Older E} (hw : WellNamed E) : ∀ {ps : List Str} {s : Str} {l l' : L}, (∀ p ∈ ps, Segment p) → At E h s l →
    namespaces E l ps = some l' → At E h (if ps = [] then s else if s ≠ [47] then s ++ pathOf ps else pathOf ps) l'
  | [], s, l, l', _, ha, hn => by cases hn; exact ha
  | p :: ps, s, l, l', hs, ha, hn => by
    rw [namespaces, Option.bind_eq_some_iff] at hn
    obtain ⟨m, hm, hn⟩ := hn
    have hp := hs p (by simp)
    have h1 := namespace_at hw hp.1 ha hm
    have h2 := namespaces_at hw (fun q hq => hs q (by simp [hq])) h1 hn
    have hb : below s p ≠ [47] := by
      unfold below
      split
      · intro he
        have := congrArg List.length he
        have := List.length_pos_iff.2 hp.1
        simp at *
        omega
      · intro he
        exact hp.1 (by simpa using he)
    rw [if_neg (by simp)]
    have e : (if s ≠ [47] then s ++ pathOf (p :: ps) else pathOf (p :: ps)) = below s p ++ pathOf ps := by
      unfold below
      split <;> simp [pathOf]
    rw [e]
    by_cases h0 : ps = []
    · subst h0
      simpa [pathOf] using h2
    · rw [if_neg h0, if_pos hb] at h2
      exact h2

/-- **C89.**  The absolute name of a namespace is the path to it from the root: `/a/b/c`. -/
theorem C89_name (E : Env) (h : Older E) (hw : WellNamed E) (l l' : L) (hr : Root E l) (ps : List Str) (hs : ∀ p ∈ ps, Segment p)
    (hn : namespaces E l ps = some l') : absoluteName E h l' = if ps = [] then [47] else pathOf ps := by
  have := (namespaces_at hw hs (root_at (h := h) hr) hn).name
  simpa using this

theorem walk_cons (E : Env) (l : L) (p : Str) {qs : List Str} (h : qs ≠ []) : walk E l (p :: qs) = (namespace' E l p).bind fun l' => walk E l' qs := by
  cases qs with
  | nil => exact absurd rfl h
  | cons q qs =>
    rw [walk]
    · cases namespace' E l p <;> rfl
    · simp

theorem walk_empty (E : Env) (l : L) {qs : List Str} (h : qs ≠ []) : walk E l ([] :: qs) = walk E l qs := by
  rw [walk_cons E l [] h]
  have : namespace' E l [] = some l := by cases l <;> simp [namespace']
  rw [this]
  rfl

theorem walk_path (E : Env) (k : Str) : ∀ (ps : List Str) (l l' : L), namespaces E l ps = some l' → walk E l (ps ++ [k]) = get E l' k
  | [], l, l', h => by cases h; rfl
  | p :: ps, l, l', h => by
    rw [namespaces, Option.bind_eq_some_iff] at h
    obtain ⟨m, hm, h⟩ := h
    rw [List.cons_append, walk_cons E l p (by simp), hm, Option.bind_some]
    exact walk_path E k ps m l' h

theorem split_path {k : Str} (hk : 47 ∉ k) : ∀ (ps : List Str), (∀ p ∈ ps, Segment p) → ∀ a : Str, 47 ∉ a → split (a ++ (pathOf ps ++ 47 :: k)) = a :: (ps ++ [k])
  | [], _, a, ha => by simp [pathOf, split_slash _ ha, split_plain hk]
  | p :: ps, h, a, ha => by
    have ih := split_path hk ps (fun q hq => h q (by simp [hq])) p (h p (by simp)).2
    have : a ++ (pathOf (p :: ps) ++ 47 :: k) = a ++ 47 :: (p ++ (pathOf ps ++ 47 :: k)) := by simp [pathOf]
    rw [this, split_slash _ ha, ih]
    rfl

/-- **C89.**  What a namespace has by a name is loaded from the root by the absolute name of the namespace, a slash and the name. -/
theorem C89_load (E : Env) (h : Older E) (hw : WellNamed E) (l l' : L) (hr : Root E l) (ps : List Str) (hs : ∀ p ∈ ps, Segment p)
    (hn : namespaces E l ps = some l') (k : Str) (hk : 47 ∉ k) : load E l (absoluteName E h l' ++ 47 :: k) = get E l' k := by
  rw [C89_name E h hw l l' hr ps hs hn]
  unfold load
  split
  · rename_i h0
    subst h0
    cases hn
    show walk E l (split ([] ++ 47 :: ([] ++ 47 :: k))) = _
    rw [split_slash _ (by simp), split_slash _ (by simp), split_plain hk, walk_empty E l (by simp), walk_empty E l (by simp)]
    rfl
  · have := split_path hk ps hs [] (by simp)
    rw [List.nil_append] at this
    rw [this, walk_empty E l (by simp)]
    exact walk_path E k ps l l' hn

theorem pathOf_injective : ∀ {ps qs : List Str}, (∀ p ∈ ps, Segment p) → (∀ q ∈ qs, Segment q) → pathOf ps = pathOf qs → ps = qs := by
  intro ps qs hp hq he
  have h1 := split_path (k := []) (by simp) ps hp [] (by simp)
  have h2 := split_path (k := []) (by simp) qs hq [] (by simp)
  rw [he, h2] at h1
  simpa using h1.symm

/-- **C89.**  The absolute name identifies the namespace: below one root, no two have the same. -/
theorem C89_identifies (E : Env) (h : Older E) (hw : WellNamed E) (l a b : L) (hr : Root E l) (ps qs : List Str) (hp : ∀ p ∈ ps, Segment p)
    (hq : ∀ q ∈ qs, Segment q) (ha : namespaces E l ps = some a) (hb : namespaces E l qs = some b)
    (he : absoluteName E h a = absoluteName E h b) : ps = qs ∧ a = b := by
  have hpath : pathOf ps ≠ [47] := by
    intro hc
    match ps, hp with
    | [], _ => simp [pathOf] at hc
    | p :: ps, hp =>
      have h1 := (hp p (by simp)).1
      simp [pathOf, h1] at hc
  have hpath' : pathOf qs ≠ [47] := by
    intro hc
    match qs, hq with
    | [], _ => simp [pathOf] at hc
    | p :: ps, hq =>
      have h1 := (hq p (by simp)).1
      simp [pathOf, h1] at hc
  have key : ps = qs := by
    rw [C89_name E h hw l a hr ps hp ha, C89_name E h hw l b hr qs hq hb] at he
    split at he <;> split at he
    · rename_i h1 h2; rw [h1, h2]
    · exact absurd he.symm hpath'
    · exact absurd he hpath
    · exact pathOf_injective hp hq he
  subst key
  rw [ha] at hb
  exact ⟨rfl, by cases hb; rfl⟩

/-- the root 0 has the namespace `a` (1), which has the namespace `b` (2), where `x` is 7 -/
def demo89 (root : Str) : Env where
  get i k := if i = 2 ∧ k = [120] then some (.int 7) else none
  ns i n := if i = 0 ∧ n = [97] then some 1 else if i = 1 ∧ n = [98] then some 2 else none
  name i := if i = 0 then root else if i = 1 then [97] else [98]
  parentNs i := if i = 1 then some 0 else if i = 2 then some 1 else none

theorem demo89_older (root : Str) : Older (demo89 root) := by
  intro i p h
  simp only [demo89] at h
  split at h
  · cases h; omega
  · split at h
    · cases h; omega
    · cases h

theorem demo89_named (root : Str) : WellNamed (demo89 root) := by
  intro i n j h
  simp only [demo89] at h
  split at h
  · rename_i h1; cases h; simp [demo89, h1]
  · split at h
    · rename_i h1; cases h; simp [demo89, h1]
    · cases h

example : Root (demo89 []) (.base 0) ∧ namespaces (demo89 []) (.base 0) [[97], [98]] = some (.base 2) ∧
    absoluteName (demo89 []) (demo89_older []) (.base 2) = [47, 97, 47, 98] ∧
    load (demo89 []) (.base 0) [47, 97, 47, 98, 47, 120] = some (.int 7) :=
  ⟨⟨rfl, rfl⟩, by rfl, by decide +kernel, by rfl⟩

/-- **C89 is violated** for a loader in the root namespace that has a name: the absolute names of its namespaces begin with that name, which it
does not find. -/
theorem C89_violated : namespaces (demo89 [109]) (.base 0) [[97], [98]] = some (.base 2) ∧
    absoluteName (demo89 [109]) (demo89_older [109]) (.base 2) = [47, 109, 47, 97, 47, 98] ∧
    get (demo89 [109]) (.base 2) [120] = some (.int 7) ∧
    load (demo89 [109]) (.base 0) (absoluteName (demo89 [109]) (demo89_older [109]) (.base 2) ++ [47, 120]) = none ∧
    load (demo89 [109]) (.base 0) [97, 47, 98, 47, 120] = some (.int 7) := by
  refine ⟨by rfl, by decide +kernel, by rfl, ?_, by rfl⟩
  rw [show absoluteName (demo89 [109]) (demo89_older [109]) (.base 2) = [47, 109, 47, 97, 47, 98] from by decide +kernel]
  rfl

end Verif.Conc.Tree
