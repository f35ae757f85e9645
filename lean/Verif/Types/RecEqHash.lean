import Verif.Types.RecEqLemmas
import Batteries.Data.List.Perm
import Mathlib.Data.Finset.Filter
/-!
# HashCode of types that contain themselves: when it returns
-/
set_option autoImplicit false
set_option linter.unusedVariables false
set_option linter.unusedSimpArgs false

namespace Verif.Types.RecEq
open Verif.Value

/-! ### Ways without a node twice -/

section Ways
variable {T : Types} {refs : Node → List Nat}

/-- A way from `t` to `v`; the list has what is before `v`. -/
inductive Walk (T : Types) (refs : Node → List Nat) : List Nat → Nat → Nat → Prop where
  | here (t : Nat) : Walk T refs [] t t
  | step {t u v : Nat} {x : Node} {l : List Nat} : T[t]? = some x → u ∈ refs x → Walk T refs l u v → Walk T refs (t :: l) t v

theorem Reach.walk {t v : Nat} (h : Reach T refs t v) : ∃ l, Walk T refs l t v := by
  induction h with
  | here t => exact ⟨[], .here t⟩
  | step h hu _ ih =>
    obtain ⟨l, hl⟩ := ih
    exact ⟨_, .step h hu hl⟩

theorem Reach.trans {t u v : Nat} (h : Reach T refs t u) (h' : Reach T refs u v) : Reach T refs t v := by
  induction h with
  | here t => exact h'
  | step h hu _ ih => exact .step h hu (ih h')

/-- A way from `t` to `v` that goes nowhere twice, and not through `S` -/
inductive Simple (T : Types) (refs : Node → List Nat) : List Nat → Nat → Nat → Prop where
  | here (S : List Nat) (t : Nat) : Simple T refs S t t
  | step {S : List Nat} {t u v : Nat} {x : Node} : T[t]? = some x → t ∉ S → u ∈ refs x → Simple T refs (t :: S) u v → Simple T refs S t v

theorem Simple.mono {S S' : List Nat} {t v : Nat} (h : Simple T refs S t v) (hs : ∀ a ∈ S', a ∈ S) : Simple T refs S' t v := by
  induction h generalizing S' with
  | here S t => exact .here _ _
  | step h hn hu _ ih =>
    refine .step h (fun hm => hn (hs _ hm)) hu (ih fun a ha => ?_)
    cases ha with
    | head => exact .head _
    | tail _ ha => exact .tail _ (hs a ha)

theorem Walk.suffix {l : List Nat} {u v t : Nat} (h : Walk T refs l u v) (ht : t ∈ l) :
    ∃ l', l'.length ≤ l.length ∧ (∀ a ∈ l', a ∈ l) ∧ Walk T refs l' t v := by
  induction h with
  | here t => cases ht
  | step h hu hw ih =>
    cases ht with
    | head => exact ⟨_, Nat.le_refl _, fun a ha => ha, .step h hu hw⟩
    | tail _ ht =>
      obtain ⟨l', h1, h2, h3⟩ := ih ht
      exact ⟨l', Nat.le_succ_of_le h1, fun a ha => .tail _ (h2 a ha), h3⟩

theorem Walk.simple : (n : Nat) → {l : List Nat} → {t v : Nat} → (S : List Nat) → l.length ≤ n → Walk T refs l t v → (∀ a ∈ l, a ∉ S) →
    Simple T refs S t v
  | 0, l, t, v, S, hn, hw, ha => by
    cases hw with
    | here t => exact .here _ _
    | step h hu hw => exact absurd hn (by simp)
  | n + 1, l, t, v, S, hn, hw, ha => by
    cases hw with
    | here t => exact .here _ _
    | step h hu hw =>
      rename_i l
      by_cases ht : t ∈ l
      · obtain ⟨l', h1, h2, h3⟩ := hw.suffix ht
        exact Walk.simple n S (by simp at hn; omega) h3 fun a h' => ha a (.tail _ (h2 a h'))
      · refine .step h (ha t (.head _)) hu (Walk.simple n (t :: S) (by simp at hn; omega) hw fun a h' => ?_)
        intro hm
        cases hm with
        | head => exact ht h'
        | tail _ hm => exact ha a (.tail _ h') hm

theorem Reach.simple {t v : Nat} (h : Reach T refs t v) : Simple T refs [] t v := by
  obtain ⟨l, hl⟩ := h.walk
  exact Walk.simple l.length [] (Nat.le_refl _) hl fun _ _ => List.not_mem_nil

end Ways

/-! ### It does not return -/

theorem codes_none {f : Nat → Code} : (ts : List Nat) → {c : Nat} → c ∈ ts → f c = none → codes f ts = none
  | t :: ts, c, hc, h => by
    rw [codes]
    cases hc with
    | head => rw [h]
    | tail _ hc =>
      split
      · rfl
      · rw [codes_none ts hc h]; rfl

theorem deepHash_none {T : Types} {f : Nat → Code} {x : Node} {c : Nat} (hc : c ∈ x.keyRefs) (hd : x.isDeep = true) (ha : isAny T c = false)
    (h : f c = none) : deepHash T f x = none := by
  cases x with
  | leaf t => cases hd
  | not t => cases hd
  | arr e lo hi =>
    cases List.mem_singleton.1 hc
    simp [deepHash, ha, h]
  | map k v lo hi =>
    cases List.mem_singleton.1 hc
    simp [deepHash, ha, h]
  | sens t =>
    cases List.mem_singleton.1 hc
    simp [deepHash, h]
  | tuple ts var => simp only [deepHash, codes_none ts hc h, Option.map_none]
  | struct add fs => simp only [deepHash, codes_none (fs.map fun f : Val × Bool × Nat => f.2.2) hc h, Option.map_none]
  | allOf ts => simp only [deepHash, codes_none ts hc h, Option.map_none]
  | anyOf ts => simp only [deepHash, codes_none ts hc h, Option.map_none]
  | oneOf ts => simp only [deepHash, codes_none ts hc h, Option.map_none]

theorem down_sub {g : Option (List Nat)} {t : Nat} {x : Node} : ∀ a ∈ down g t x, a ∈ t :: g.getD [] := by
  intro a ha
  unfold down at ha
  split at ha
  · cases ha
  · exact ha

theorem simple_not_any {T : Types} {S : List Nat} {c u w : Nat} (hu : T[u]? = some (.not w)) (h : Simple T Node.keyRefs S c u) : isAny T c = false := by
  cases h with
  | here => simp [isAny, hu]
  | @step _ _ _ _ x h hn hm _ =>
    unfold isAny
    rw [h]
    cases x with
    | leaf s => cases hm
    | _ => rfl

theorem hash_none {T : Types} {u w : Nat} (hu : T[u]? = some (.not w)) (hw : Reach T Node.keyRefs w u) :
    (n : Nat) → (g : Option (List Nat)) → (t : Nat) → Simple T Node.keyRefs (g.getD []) t u → hashCode T n g t = none
  | 0, g, t, h => rfl
  | n + 1, g, t, h => by
    cases h with
    | here => rw [hash_not hu, hash_none hu hw n none w hw.simple]; rfl
    | step ht hn hc hs =>
      rename_i c x
      cases hd : x.isDeep
      · cases x with
        | leaf s => cases hc
        | not y =>
          cases List.mem_singleton.1 hc
          rw [hash_not ht, hash_none hu hw n none _ (hs.mono fun a ha => by cases ha)]; rfl
        | _ => cases hd
      · rw [hash_deep ht hd hn]
        exact deepHash_none hc hd (simple_not_any hu hs) (hash_none hu hw n _ c (hs.mono down_sub))

/-! ### It returns -/

theorem codes_total {T : Types} {g : Option (List Nat)} : (ts : List Nat) → (∀ t ∈ ts, ∃ n h, hashCode T n g t = some h) →
    ∃ n hs, codes (hashCode T n g) ts = some hs
  | [], _ => ⟨0, [], rfl⟩
  | t :: ts, h => by
    obtain ⟨n, x, hx⟩ := h t (.head _)
    obtain ⟨m, hs, hm⟩ := codes_total ts fun t ht => h t (.tail _ ht)
    refine ⟨max n m, x :: hs, ?_⟩
    rw [codes, hash_mono (Nat.le_max_left n m) g t x hx]
    have := codes_ext ts (fun t _ => hash_mono (T := T) (Nat.le_max_right n m) g t) hs hm
    simp only [this, Option.map_some]

theorem deepHash_total {T : Types} {g : Option (List Nat)} {x : Node} (hd : x.isDeep = true) (h : ∀ t ∈ x.keyRefs, ∃ n h, hashCode T n g t = some h) :
    ∃ n h, deepHash T (hashCode T n g) x = some h := by
  cases x with
  | leaf t => cases hd
  | not t => cases hd
  | arr e lo hi =>
    obtain ⟨n, x, hx⟩ := h e (.head _)
    simp only [deepHash]
    by_cases ha : isAny T e = true
    · exact ⟨n, _, if_pos ha⟩
    · exact ⟨n, _, by rw [if_neg ha, hx]; rfl⟩
  | map k v lo hi =>
    obtain ⟨n, x, hx⟩ := h k (.head _)
    simp only [deepHash]
    refine ⟨n, ?_⟩
    rw [hx]
    by_cases ha : isAny T k = true <;> by_cases hv : isAny T v = true <;> simp [ha, hv]
  | sens t =>
    obtain ⟨n, x, hx⟩ := h t (.head _)
    exact ⟨n, _, by rw [deepHash, hx]; rfl⟩
  | tuple ts var => obtain ⟨n, hs, hx⟩ := codes_total ts h; exact ⟨n, _, by rw [deepHash, hx]; rfl⟩
  | struct add fs => obtain ⟨n, hs, hx⟩ := codes_total (fs.map fun f : Val × Bool × Nat => f.2.2) h; exact ⟨n, _, by rw [deepHash, hx]; rfl⟩
  | allOf ts => obtain ⟨n, hs, hx⟩ := codes_total ts h; exact ⟨n, _, by rw [deepHash, hx]; rfl⟩
  | anyOf ts => obtain ⟨n, hs, hx⟩ := codes_total ts h; exact ⟨n, _, by rw [deepHash, hx]; rfl⟩
  | oneOf ts => obtain ⟨n, hs, hx⟩ := codes_total ts h; exact ⟨n, _, by rw [deepHash, hx]; rfl⟩

open Classical in
/-- How many types can be reached -/
noncomputable def rank (T : Types) (refs : Node → List Nat) (t : Nat) : Nat :=
  ((Finset.range T.length).filter fun u => Reach T refs t u).card

theorem rank_le {T : Types} {refs : Node → List Nat} {t u : Nat} {x : Node} (h : T[t]? = some x) (hu : u ∈ refs x) :
    rank T refs u ≤ rank T refs t := by
  classical
  refine Finset.card_le_card fun a ha => ?_
  simp only [Finset.mem_filter] at ha ⊢
  exact ⟨ha.1, .step h hu ha.2⟩

theorem rank_lt {T : Types} {refs : Node → List Nat} {t u : Nat} {x : Node} (h : T[t]? = some x) (hu : u ∈ refs x) (hn : ¬ Reach T refs u t) :
    rank T refs u < rank T refs t := by
  classical
  refine Finset.card_lt_card ⟨fun a ha => ?_, fun hs => ?_⟩
  · simp only [Finset.mem_filter] at ha ⊢
    exact ⟨ha.1, .step h hu ha.2⟩
  · have ht : t < T.length := by
      by_contra hlt
      rw [List.getElem?_eq_none (by omega)] at h
      cases h
    have : t ∈ (Finset.range T.length).filter fun u => Reach T refs t u := by
      simp only [Finset.mem_filter, Finset.mem_range]; exact ⟨ht, .here t⟩
    have := hs this
    simp only [Finset.mem_filter] at this
    exact hn this.2

theorem seen_room {N t : Nat} {seen : List Nat} (hn : seen.Nodup) (hl : ∀ a ∈ seen, a < N) (ht : t < N) (hs : t ∉ seen) : seen.length + 1 ≤ N := by
  have h : (t :: seen) ⊆ List.range N := by
    intro a ha
    cases ha with
    | head => exact List.mem_range.2 ht
    | tail _ ha => exact List.mem_range.2 (hl a ha)
  have := (List.subperm_of_subset (List.nodup_cons.2 ⟨hs, hn⟩) h).length_le
  simpa using this

theorem NegatesItself.ref {T : Types} {refs : Node → List Nat} {t u : Nat} {x : Node} (h : T[t]? = some x) (hu : u ∈ refs x)
    (hn : NegatesItself T refs u) : NegatesItself T refs t := by
  obtain ⟨a, w, h1, h2, h3⟩ := hn
  exact ⟨a, w, .step h hu h1, h2, h3⟩

theorem keyRefs_sub {x : Node} : ∀ t ∈ x.keyRefs, t ∈ x.refs := by
  intro t ht
  cases x with
  | map k v lo hi => cases List.mem_singleton.1 ht; exact .head _
  | _ => exact ht

theorem lt_of_get {T : Types} {t : Nat} {x : Node} (h : T[t]? = some x) : t < T.length := by
  by_contra hlt
  rw [List.getElem?_eq_none (by omega)] at h
  cases h

theorem Closed.ref {T : Types} (hT : Closed T) {t u : Nat} {x : Node} (h : T[t]? = some x) (hu : u ∈ x.refs) : ∃ y, T[u]? = some y :=
  ⟨_, List.getElem?_eq_getElem (hT.refs x (List.mem_of_getElem? h) u hu)⟩

theorem hash_seen {T : Types} (hT : Closed T) {r : Nat}
    (hr : ∀ t x, T[t]? = some x → rank T Node.keyRefs t < r → ¬ NegatesItself T Node.keyRefs t → ∃ n h, hashCode T n none t = some h) :
    (k : Nat) → (seen : List Nat) → (t : Nat) → (x : Node) → T[t]? = some x → rank T Node.keyRefs t ≤ r → ¬ NegatesItself T Node.keyRefs t →
    seen.Nodup → (∀ a ∈ seen, a < T.length) → T.length ≤ k + seen.length → ∃ n h, hashCode T n (some seen) t = some h
  | k, seen, t, x, ht, hrk, hneg, hnd, hlt, hk => by
    cases hd : x.isDeep
    · cases x with
      | leaf s => exact ⟨1, _, hash_leaf ht⟩
      | not u =>
        obtain ⟨y, hy⟩ := hT.ref ht (u := u) (.head _)
        obtain ⟨n, h, hh⟩ := hr u y hy
          (Nat.lt_of_lt_of_le (rank_lt ht (.head _) fun hre => hneg ⟨t, u, .here t, ht, hre⟩) hrk)
          fun hn => hneg (hn.ref ht (.head _))
        exact ⟨n + 1, _, by rw [hash_not ht, hh]; rfl⟩
      | _ => cases hd
    · by_cases hs : t ∈ seen
      · exact ⟨1, _, hash_hit ht hd hs⟩
      · have room := seen_room hnd hlt (lt_of_get ht) hs
        match k, hk with
        | 0, hk => omega
        | k + 1, hk =>
          have hdown : down (some seen) t x = t :: seen := rfl
          obtain ⟨n, h, hh⟩ := deepHash_total (T := T) (g := some (t :: seen)) hd fun u hu => by
            obtain ⟨y, hy⟩ := hT.ref ht (keyRefs_sub u hu)
            refine hash_seen hT hr k (t :: seen) u y hy (Nat.le_trans (rank_le ht hu) hrk) (fun hn => hneg (hn.ref ht hu))
              (List.nodup_cons.2 ⟨hs, hnd⟩) (fun a ha => ?_) (by simp; omega)
            cases ha with
            | head => exact lt_of_get ht
            | tail _ ha => exact hlt a ha
          exact ⟨n + 1, h, by rw [hash_deep (g := some seen) ht hd hs, hdown, hh]⟩

theorem hash_total {T : Types} (hT : Closed T) : (r : Nat) → (t : Nat) → (x : Node) → T[t]? = some x → rank T Node.keyRefs t < r →
    ¬ NegatesItself T Node.keyRefs t → ∃ n h, hashCode T n none t = some h
  | 0, t, x, ht, hr, hneg => absurd hr (Nat.not_lt_zero _)
  | r + 1, t, x, ht, hr, hneg => by
    have ih := hash_total hT r
    cases hd : x.isDeep
    · cases x with
      | leaf s => exact ⟨1, _, hash_leaf ht⟩
      | not u =>
        obtain ⟨y, hy⟩ := hT.ref ht (u := u) (.head _)
        obtain ⟨n, h, hh⟩ := ih u y hy
          (Nat.lt_of_lt_of_le (rank_lt ht (.head _) fun hre => hneg ⟨t, u, .here t, ht, hre⟩) (Nat.le_of_lt_succ hr))
          fun hn => hneg (hn.ref ht (.head _))
        exact ⟨n + 1, _, by rw [hash_not ht, hh]; rfl⟩
      | _ => cases hd
    · have hs : t ∉ (none : Option (List Nat)).getD [] := List.not_mem_nil
      have hnd : (down none t x).Nodup := by unfold down; split <;> simp
      have hlt : ∀ a ∈ down none t x, a < T.length := by
        intro a ha
        have := down_sub a ha
        cases this with
        | head => exact lt_of_get ht
        | tail _ h => cases h
      obtain ⟨n, h, hh⟩ := deepHash_total (T := T) (g := some (down none t x)) hd fun u hu => by
        obtain ⟨y, hy⟩ := hT.ref ht (keyRefs_sub u hu)
        exact hash_seen hT (fun t x a b c => ih t x a b c) T.length _ u y hy
          (Nat.le_trans (rank_le ht hu) (Nat.le_of_lt_succ hr)) (fun hn => hneg (hn.ref ht hu)) hnd hlt (Nat.le_add_right _ _)
      exact ⟨n + 1, h, by rw [hash_deep ht hd hs, hh]⟩

end Verif.Types.RecEq
