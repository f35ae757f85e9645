import Verif.Alias.Model
import Verif.HMap.ListProps
/-!
# C102: names of types and types of names
-/
set_option autoImplicit false
set_option linter.unusedSectionVars false
namespace Verif.Alias
open Verif.HMap Verif.HMap.Spec

variable {N T : Type} [KeyOps N] [KeyOps T]

/-- The lemmas about maps are stated for values with `Equals`, of which nothing is used here. -/
local instance (priority := low) anyVal {V : Type} : ValOps V := ⟨fun _ _ => false, fun _ => false, id, id⟩

/-! ## Specification -/

/-- The maps that calls of `AddAliases` lead to, starting with an empty one -/
def Reachable (R : Replace N T) (a : AMap N T) : Prop := ∃ cs, a = calls R .empty cs

/-- The call gives no name that is in use to another type. -/
def Keeps (a a' : AMap N T) : Prop :=
  ∀ n t, a.getType n = some t → ∃ t', a'.getType n = some t' ∧ KeyOps.eq t t' = true

/-- None of the calls does. -/
def AllKeep (R : Replace N T) (a : AMap N T) : List (List (T × N)) → Prop
  | [] => True
  | c :: cs => Keeps a ((collect R a c).getD a) ∧ AllKeep R ((collect R a c).getD a) cs

/-- `t` is the type that the calls of `Add` give the name last. -/
def LastAdd (adds : List (T × N)) (n : N) (t : T) : Prop :=
  ∃ A B n', adds = A ++ (t, n') :: B ∧ KeyOps.eq n n' = true ∧ ∀ e ∈ B, KeyOps.eq n e.2 = false

/-- What names stand for while a call resolves what it adds: what it adds last, and what they stood for otherwise. -/
def Known (a : AMap N T) (adds : List (T × N)) (get : N → Option T) : Prop :=
  ∀ n, (∀ t, LastAdd adds n t → get n = some t) ∧ ((∀ e ∈ adds, KeyOps.eq n e.2 = false) → get n = a.getType n)

mutual
/-- The names that are declared in a text, at any depth -/
def Decl.names : Decl N T → List N
  | .mk n inner _ => n :: namesOf inner
def namesOf : List (Decl N T) → List N
  | [] => []
  | d :: ds => d.names ++ namesOf ds
end

/-! ## Lemmas -/

theorem foldl_pairs (rs : List (N × T)) (a : AMap N T) :
    rs.foldl (fun c e => (⟨insert c.namedTypes e.1 e.2, insert c.typeNames e.2 e.1⟩ : AMap N T)) a =
      ⟨insertAll a.namedTypes rs, insertAll a.typeNames (rs.map fun e => (e.2, e.1))⟩ := by
  induction rs generalizing a with
  | nil => rfl
  | cons e rs ih => rw [List.foldl_cons, ih]; rfl

theorem resolveAll_keys {R : Replace N T} {get : N → Option T} : ∀ {l rs : List (N × T)}, resolveAll R get l = some rs →
    rs.map (·.1) = l.map (·.1)
  | [], rs, h => by cases h; rfl
  | (n, t) :: r, rs, h => by
    rw [resolveAll] at h
    obtain ⟨t', _, h⟩ := Option.bind_eq_some_iff.1 h
    obtain ⟨r', h', rfl⟩ := Option.map_eq_some_iff.1 h
    simp [resolveAll_keys h']

theorem resolveAll_lookup {R : Replace N T} {get : N → Option T} (n : N) : ∀ {l rs : List (N × T)}, resolveAll R get l = some rs →
    lookup n rs = (lookup n l).bind (R get)
  | [], rs, h => by cases h; rfl
  | (m, t) :: r, rs, h => by
    rw [resolveAll] at h
    obtain ⟨t', ht, h⟩ := Option.bind_eq_some_iff.1 h
    obtain ⟨r', h', rfl⟩ := Option.map_eq_some_iff.1 h
    rw [lookup_cons, lookup_cons, resolveAll_lookup n h']
    cases KeyOps.eq n m <;> simp [ht]

theorem resolveAll_isSome {R : Replace N T} {get : N → Option T} : ∀ {l rs : List (N × T)}, resolveAll R get l = some rs →
    ∀ e ∈ l, (R get e.2).isSome
  | [], rs, h => by simp
  | (m, t) :: r, rs, h => by
    rw [resolveAll] at h
    obtain ⟨t', ht, h⟩ := Option.bind_eq_some_iff.1 h
    obtain ⟨r', h', rfl⟩ := Option.map_eq_some_iff.1 h
    intro e he
    rcases List.mem_cons.1 he with rfl | he
    · rw [ht]; rfl
    · exact resolveAll_isSome h' e he

/-- Without repeated keys, the last is the first. -/
theorem lookup_reverse [LawfulKey N] {l : List (N × T)} (h : DistinctKeys l) (n : N) : lookup n l.reverse = lookup n l := by
  have h1 := lookup_insertAll n ([] : List (N × T)) l h
  have h2 := lookup_insertAll_last n ([] : List (N × T)) l
  rw [h1] at h2
  simpa [lookup_nil] using h2.symm

theorem distinct_insert [LawfulKey N] {l : List (N × T)} (h : DistinctKeys l) (n : N) (t : T) : DistinctKeys (insert l n t) := by
  cases hl : lookup n l with
  | some o =>
    unfold Spec.insert
    rw [hl]
    simp only [Option.isSome_some, if_true]
    unfold DistinctKeys
    rw [List.pairwise_map]
    refine h.imp ?_
    intro a b hab
    split <;> split <;> exact hab
  | none =>
    have hno : ∀ e ∈ l, KeyOps.eq n e.1 = false := by
      have := lookup_isSome n l
      rw [hl] at this
      intro e he
      cases hx : KeyOps.eq n e.1 with
      | false => rfl
      | true => rw [List.any_eq_true.2 ⟨e, he, hx⟩] at this; cases this
    rw [insert_miss hno]
    refine List.pairwise_append.2 ⟨h, List.pairwise_singleton _ _, ?_⟩
    intro a ha b hb
    rw [List.mem_singleton.1 hb]
    cases hx : KeyOps.eq a.1 (KeyOps.freeze n) with
    | false => rfl
    | true =>
      have h1 := LawfulKey.trans _ _ _ hx (LawfulKey.frz n)
      rw [LawfulKey.comm, hno a ha] at h1
      cases h1

theorem distinct_insertAll [LawfulKey N] (as : List (N × T)) : ∀ {l : List (N × T)}, DistinctKeys l → DistinctKeys (insertAll l as) := by
  unfold insertAll
  induction as with
  | nil => exact fun h => h
  | cons a as ih => exact fun h => ih (distinct_insert h _ _)

theorem lookup_mem {K V : Type} [KeyOps K] {k : K} {v : V} : ∀ {l : List (K × V)}, lookup k l = some v →
    ∃ k', (k', v) ∈ l ∧ KeyOps.eq k k' = true
  | [], h => by cases h
  | e :: l, h => by
    rw [lookup_cons] at h
    split at h
    · cases h; exact ⟨e.1, by simp, by assumption⟩
    · obtain ⟨k', h1, h2⟩ := lookup_mem h
      exact ⟨k', List.mem_cons_of_mem _ h1, h2⟩

/-- What a call does to both maps -/
theorem collect_cases [LawfulKey N] {R : Replace N T} {a a' : AMap N T} {adds : List (T × N)} (h : collect R a adds = some a') :
    ∃ rs : List (N × T), DistinctKeys rs ∧
      (∀ n, lookup n rs = (lookup n (adds.map fun e => (e.2, e.1)).reverse).bind
        (R (adderGet a (insertAll [] (adds.map fun e => (e.2, e.1)))))) ∧
      (∀ n t, lookup n (adds.map fun e => (e.2, e.1)).reverse = some t →
        (R (adderGet a (insertAll [] (adds.map fun e => (e.2, e.1)))) t).isSome) ∧
      a' = ⟨insertAll a.namedTypes rs, insertAll a.typeNames (rs.map fun e => (e.2, e.1))⟩ := by
  unfold collect at h
  dsimp only at h
  have hl : ∀ n, lookup n (insertAll [] (adds.map fun e => (e.2, e.1))) = lookup n (adds.map fun e => (e.2, e.1)).reverse := by
    intro n
    rw [lookup_insertAll_last, lookup_nil, Option.or_none]
  split at h
  · unfold update at h
    obtain ⟨rs, hr, rfl⟩ := Option.map_eq_some_iff.1 h
    refine ⟨rs, ?_, ?_, ?_, foldl_pairs rs a⟩
    · have hd : DistinctKeys (insertAll [] (adds.map fun e => (e.2, e.1))) := distinct_insertAll _ List.Pairwise.nil
      have hk := resolveAll_keys hr
      have h1 : (rs.map (·.1)).Pairwise fun x y : N => KeyOps.eq x y = false := by
        rw [hk, List.pairwise_map]; exact hd
      rw [List.pairwise_map] at h1
      exact h1
    · intro n
      rw [resolveAll_lookup n hr, hl]
    · intro n t hn
      rw [← hl] at hn
      obtain ⟨k, hm, _⟩ := lookup_mem hn
      exact resolveAll_isSome hr _ hm
  · rename_i h0
    cases h
    have h0 : insertAll [] (adds.map fun e => (e.2, e.1)) = [] := by
      cases hx : insertAll [] (adds.map fun e => (e.2, e.1)) with
      | nil => rfl
      | cons => rw [hx] at h0; simp at h0
    refine ⟨[], List.Pairwise.nil, ?_, ?_, rfl⟩
    · intro n
      rw [← hl, h0]
      rfl
    · intro n t hn
      rw [← hl, h0] at hn
      cases hn

theorem mem_lookup {K V : Type} [KeyOps K] [LawfulKey K] {k : K} {v : V} {l : List (K × V)} (hd : DistinctKeys l) (h : (k, v) ∈ l) :
    lookup k l = some v := by
  obtain ⟨A, B, rfl⟩ := List.append_of_mem h
  refine lookup_hit (e := (k, v)) ?_ (LawfulKey.refl _)
  intro a ha
  rw [LawfulKey.comm]
  exact (List.pairwise_append.1 hd).2.2 a ha (k, v) (List.mem_cons_self ..)

theorem mem_found {K V : Type} [KeyOps K] {k k' : K} {v : V} {l : List (K × V)} (h : (k', v) ∈ l) (hk : KeyOps.eq k k' = true) :
    ∃ v', lookup k l = some v' := by
  have := lookup_isSome k l
  rw [List.any_eq_true.2 ⟨_, h, hk⟩] at this
  exact Option.isSome_iff_exists.1 this

/-- Names and types are in both directions -/
theorem both_step [LawfulKey N] [LawfulKey T] {R : Replace N T} {a a' : AMap N T} {adds : List (T × N)} (h : collect R a adds = some a')
    (h1 : ∀ n t, a.getType n = some t → ∃ n', a.getName t = some n') (h2 : ∀ n t, a.getName t = some n → ∃ t', a.getType n = some t') :
    (∀ n t, a'.getType n = some t → ∃ n', a'.getName t = some n') ∧ (∀ n t, a'.getName t = some n → ∃ t', a'.getType n = some t') := by
  obtain ⟨rs, hd, _, _, rfl⟩ := collect_cases h
  unfold AMap.getType AMap.getName at *
  dsimp only
  refine ⟨fun n t hn => ?_, fun n t ht => ?_⟩
  · rw [lookup_insertAll_last, lookup_reverse hd] at hn
    rw [lookup_insertAll_last]
    have key : (∃ n', (n', t) ∈ rs) ∨ lookup n a.namedTypes = some t := by
      cases hr : lookup n rs with
      | none => rw [hr] at hn; exact .inr hn
      | some t' => rw [hr] at hn; cases hn; obtain ⟨k, hk, _⟩ := lookup_mem hr; exact .inl ⟨k, hk⟩
    rcases key with ⟨n', hm⟩ | hm
    · obtain ⟨v, hv⟩ := mem_found (k := t) (l := (rs.map fun e => (e.2, e.1)).reverse)
        (List.mem_reverse.2 (List.mem_map.2 ⟨_, hm, rfl⟩)) (LawfulKey.refl t)
      exact ⟨v, by rw [hv]; rfl⟩
    · obtain ⟨v, hv⟩ := h1 n t hm
      rw [hv]
      cases lookup t (rs.map fun e => (e.2, e.1)).reverse with
      | none => exact ⟨v, rfl⟩
      | some x => exact ⟨x, rfl⟩
  · rw [lookup_insertAll_last] at ht
    rw [lookup_insertAll_last, lookup_reverse hd]
    cases hr : lookup t (rs.map fun e => (e.2, e.1)).reverse with
    | none =>
      rw [hr] at ht
      obtain ⟨v, hv⟩ := h2 n t ht
      rw [hv]
      cases lookup n rs with
      | none => exact ⟨v, rfl⟩
      | some x => exact ⟨x, rfl⟩
    | some m =>
      rw [hr] at ht; cases ht
      obtain ⟨t', hm, _⟩ := lookup_mem hr
      obtain ⟨⟨k, x⟩, hm', he⟩ := List.mem_map.1 (List.mem_reverse.1 hm)
      cases he
      exact ⟨x, by rw [mem_lookup hd hm']; rfl⟩

theorem inverse_step [LawfulKey N] [LawfulKey T] {R : Replace N T} {a a' : AMap N T} {adds : List (T × N)} (h : collect R a adds = some a')
    (hk : Keeps a a') (h1 : ∀ n t, a.getName t = some n → ∃ t', a.getType n = some t' ∧ KeyOps.eq t t' = true) :
    ∀ n t, a'.getName t = some n → ∃ t', a'.getType n = some t' ∧ KeyOps.eq t t' = true := by
  intro n t ht
  obtain ⟨rs, hd, _, _, rfl⟩ := collect_cases h
  unfold AMap.getName at ht
  dsimp only at ht
  rw [lookup_insertAll_last] at ht
  cases hr : lookup t (rs.map fun e => (e.2, e.1)).reverse with
  | none =>
    rw [hr] at ht
    obtain ⟨t', h2, h3⟩ := h1 n t ht
    obtain ⟨t'', h4, h5⟩ := hk n t' h2
    exact ⟨t'', h4, LawfulKey.trans _ _ _ h3 h5⟩
  | some m =>
    rw [hr] at ht; cases ht
    obtain ⟨t', hm, he'⟩ := lookup_mem hr
    obtain ⟨⟨k, x⟩, hm', he⟩ := List.mem_map.1 (List.mem_reverse.1 hm)
    cases he
    refine ⟨x, ?_, he'⟩
    unfold AMap.getType
    dsimp only
    rw [lookup_insertAll_last, lookup_reverse hd, mem_lookup hd hm']
    rfl

theorem lastAdd_iff (n : N) (t : T) : ∀ (adds : List (T × N)), LastAdd adds n t ↔ lookup n (adds.map fun e => (e.2, e.1)).reverse = some t := by
  intro adds
  constructor
  · rintro ⟨A, B, n', rfl, h1, h2⟩
    rw [List.map_append, List.map_cons, List.reverse_append, List.reverse_cons, List.append_assoc]
    refine lookup_hit (e := (n', t)) ?_ h1
    intro e he
    obtain ⟨x, hx, rfl⟩ := List.mem_map.1 (List.mem_reverse.1 he)
    exact h2 x hx
  · intro h
    induction adds with
    | nil => cases h
    | cons e adds ih =>
      cases hr : lookup n (adds.map fun e => (e.2, e.1)).reverse with
      | some t' =>
        have h' : lookup n (adds.map fun e => (e.2, e.1)).reverse = some t := by
          rw [← h, hr, List.map_cons, List.reverse_cons]
          unfold Spec.lookup at hr ⊢
          rw [List.find?_append]
          cases hx : List.find? (fun e => KeyOps.eq n e.1) (adds.map fun e => (e.2, e.1)).reverse with
          | none => rw [hx] at hr; cases hr
          | some y => rw [hx] at hr; rw [Option.some_or]; exact hr.symm
        obtain ⟨A, B, n', h0, h1, h2⟩ := ih h'
        exact ⟨e :: A, B, n', by rw [h0]; rfl, h1, h2⟩
      | none =>
        have hno : ∀ x ∈ adds, KeyOps.eq n x.2 = false := by
          intro x hx
          cases hb : KeyOps.eq n x.2 with
          | false => rfl
          | true =>
            obtain ⟨v, hv⟩ := mem_found (k := n) (k' := x.2) (v := x.1) (l := (adds.map fun e => (e.2, e.1)).reverse)
              (List.mem_reverse.2 (List.mem_map.2 ⟨x, hx, rfl⟩)) hb
            rw [hv] at hr; cases hr
        obtain ⟨k, hm, hk⟩ := lookup_mem h
        obtain ⟨x, hx, he⟩ := List.mem_map.1 (List.mem_reverse.1 hm)
        cases he
        rcases List.mem_cons.1 hx with rfl | hx
        · exact ⟨[], adds, x.2, rfl, hk, hno⟩
        · rw [hno x hx] at hk; cases hk

theorem noAdd_iff (n : N) (adds : List (T × N)) :
    (∀ e ∈ adds, KeyOps.eq n e.2 = false) ↔ lookup n (adds.map fun e => (e.2, e.1)).reverse = none := by
  constructor
  · intro h
    cases hr : lookup n (adds.map fun e => (e.2, e.1)).reverse with
    | none => rfl
    | some t =>
      obtain ⟨k, hm, hk⟩ := lookup_mem hr
      obtain ⟨x, hx, he⟩ := List.mem_map.1 (List.mem_reverse.1 hm)
      cases he
      rw [h x hx] at hk; cases hk
  · intro h x hx
    cases hb : KeyOps.eq n x.2 with
    | false => rfl
    | true =>
      obtain ⟨v, hv⟩ := mem_found (k := n) (k' := x.2) (v := x.1) (l := (adds.map fun e => (e.2, e.1)).reverse)
        (List.mem_reverse.2 (List.mem_map.2 ⟨x, hx, rfl⟩)) hb
      rw [hv] at h; cases h

theorem known_get [LawfulKey N] {a : AMap N T} {adds : List (T × N)} {get : N → Option T} (h : Known a adds get) :
    adderGet a (insertAll [] (adds.map fun e => (e.2, e.1))) = get := by
  funext n
  unfold adderGet
  rw [lookup_insertAll_last, lookup_nil, Option.or_none]
  cases hr : lookup n (adds.map fun e => (e.2, e.1)).reverse with
  | none => rw [Option.none_or, (h n).2 ((noAdd_iff n adds).2 hr)]
  | some t => rw [Option.some_or, (h n).1 t ((lastAdd_iff n t adds).2 hr)]

/-! ## Theorems -/

namespace Ex
instance : KeyOps String := ⟨fun s => BitVec.ofNat 64 s.length, fun a b => a == b, id⟩
instance : KeyOps Nat := ⟨fun k => BitVec.ofNat 64 (k % 2), fun a b => a == b, id⟩
instance : LawfulKey String where
  refl a := by simp [KeyOps.eq]
  symm a b h := by simp only [KeyOps.eq, beq_iff_eq] at *; exact h.symm
  trans a b c h g := by simp only [KeyOps.eq, beq_iff_eq] at *; exact h.trans g
  hash a b h := by simp only [KeyOps.eq, beq_iff_eq] at h; rw [h]
  frz a := by simp [KeyOps.eq, KeyOps.freeze]
/-- Types are numbers; 0 is an alias of "a", 1 has an alias that is not known. -/
def R : Replace String Nat := fun get t => if t = 0 then get "a" else if t = 1 then none else some t
end Ex

/-- **C102, a call.**  After a call that adds types, a name that was added has what `Replace` made of the type that was added last with it, and
the other names have the types that they had.  A type that is equal to one that was added has a name that it was added with; the other types have
the names that they had. -/
theorem C102_call [LawfulKey N] [LawfulKey T] {R : Replace N T} {a a' : AMap N T} {adds : List (T × N)} (h : collect R a adds = some a')
    {get : N → Option T} (hg : Known a adds get) :
    (∀ n t, LastAdd adds n t → (R get t).isSome ∧ a'.getType n = R get t) ∧
    (∀ n, (∀ e ∈ adds, KeyOps.eq n e.2 = false) → a'.getType n = a.getType n) ∧
    (∀ n t t', LastAdd adds n t → R get t = some t' →
      ∃ m s s', a'.getName t' = some m ∧ LastAdd adds m s ∧ R get s = some s' ∧ KeyOps.eq t' s' = true) ∧
    (∀ t, (∀ n s s', LastAdd adds n s → R get s = some s' → KeyOps.eq t s' = false) → a'.getName t = a.getName t) := by
  obtain ⟨rs, hd, hl, hs, rfl⟩ := collect_cases h
  rw [known_get hg] at hl hs
  have hmem : ∀ {k x}, (k, x) ∈ rs → ∃ s, LastAdd adds k s ∧ R get s = some x := by
    intro k x hm
    have h1 := mem_lookup hd hm
    rw [hl] at h1
    obtain ⟨s, h2, h3⟩ := Option.bind_eq_some_iff.1 h1
    exact ⟨s, (lastAdd_iff k s adds).2 h2, h3⟩
  unfold AMap.getType AMap.getName
  dsimp only
  have hty : ∀ n, lookup n (insertAll a.namedTypes rs) = (lookup n rs).or (lookup n a.namedTypes) := by
    intro n; rw [lookup_insertAll_last, lookup_reverse hd]
  have hsome : ∀ n t, LastAdd adds n t → ∃ t', R get t = some t' := by
    intro n t hn
    exact Option.isSome_iff_exists.1 (hs n t ((lastAdd_iff n t adds).1 hn))
  refine ⟨?_, ?_, ?_, ?_⟩
  · intro n t hn
    obtain ⟨t', ht⟩ := hsome n t hn
    refine ⟨by rw [ht]; rfl, ?_⟩
    rw [hty, hl, (lastAdd_iff n t adds).1 hn, Option.bind_some, ht]
    rfl
  · intro n hn
    rw [hty, hl, (noAdd_iff n adds).1 hn]
    rfl
  · intro n t t' hn ht
    have h1 : lookup n rs = some t' := by rw [hl, (lastAdd_iff n t adds).1 hn]; exact ht
    obtain ⟨k, hm, _⟩ := lookup_mem h1
    obtain ⟨m, hv⟩ := mem_found (k := t') (l := (rs.map fun e => (e.2, e.1)).reverse)
      (List.mem_reverse.2 (List.mem_map.2 ⟨_, hm, rfl⟩)) (LawfulKey.refl t')
    obtain ⟨s', hm2, he⟩ := lookup_mem hv
    obtain ⟨⟨k2, x⟩, hm3, hx⟩ := List.mem_map.1 (List.mem_reverse.1 hm2)
    cases hx
    obtain ⟨s, h2, h3⟩ := hmem hm3
    exact ⟨k2, s, x, by rw [lookup_insertAll_last, hv]; rfl, h2, h3, he⟩
  · intro t hn
    rw [lookup_insertAll_last]
    cases hv : lookup t (rs.map fun e => (e.2, e.1)).reverse with
    | none => rfl
    | some m =>
      obtain ⟨s', hm2, he⟩ := lookup_mem hv
      obtain ⟨⟨k2, x⟩, hm3, hx⟩ := List.mem_map.1 (List.mem_reverse.1 hm2)
      cases hx
      obtain ⟨s, h2, h3⟩ := hmem hm3
      rw [hn _ s x h2 h3] at he
      cases he

/-- **C102, names have types and types have names.**  In a map that calls of `AddAliases` lead to, every type that `GetType` finds has a name,
and every name that `GetName` finds has a type. -/
theorem C102_both_directions [LawfulKey N] [LawfulKey T] {R : Replace N T} {a : AMap N T} (h : Reachable R a) :
    (∀ n t, a.getType n = some t → ∃ n', a.getName t = some n') ∧ (∀ n t, a.getName t = some n → ∃ t', a.getType n = some t') := by
  obtain ⟨cs, rfl⟩ := h
  suffices H : ∀ (cs : List (List (T × N))) (a : AMap N T), ((∀ n t, a.getType n = some t → ∃ n', a.getName t = some n') ∧
      (∀ n t, a.getName t = some n → ∃ t', a.getType n = some t')) →
      ((∀ n t, (calls R a cs).getType n = some t → ∃ n', (calls R a cs).getName t = some n') ∧
        (∀ n t, (calls R a cs).getName t = some n → ∃ t', (calls R a cs).getType n = some t')) from
    H cs .empty ⟨(by intro n t h; cases h), (by intro n t h; cases h)⟩
  intro cs
  induction cs with
  | nil => exact fun a h => h
  | cons c cs ih =>
    intro a h
    rw [calls]
    refine ih _ ?_
    cases hc : collect R a c with
    | none => exact h
    | some a' => exact both_step hc h.1 h.2

/-- **C102, the inverse, where no name is given to another type.**  Then the name that `GetName` finds for a type has an equal type. -/
theorem C102_inverse_partial [LawfulKey N] [LawfulKey T] {R : Replace N T} {cs : List (List (T × N))} (hk : AllKeep R .empty cs) {n : N} {t : T}
    (h : (calls R .empty cs).getName t = some n) : ∃ t', (calls R .empty cs).getType n = some t' ∧ KeyOps.eq t t' = true := by
  suffices H : ∀ (cs : List (List (T × N))) (a : AMap N T), AllKeep R a cs →
      (∀ n t, a.getName t = some n → ∃ t', a.getType n = some t' ∧ KeyOps.eq t t' = true) →
      ∀ n t, (calls R a cs).getName t = some n → ∃ t', (calls R a cs).getType n = some t' ∧ KeyOps.eq t t' = true from
    H cs .empty hk (by intro n t h; cases h) n t h
  intro cs
  induction cs with
  | nil => exact fun a _ h => h
  | cons c cs ih =>
    intro a hk h
    rw [calls]
    refine ih _ hk.2 ?_
    cases hc : collect R a c with
    | none => exact h
    | some a' => exact inverse_step hc (by have := hk.1; rw [hc] at this; exact this) h

example : (calls Ex.R .empty [[(5, "b"), (7, "a"), (0, "c")], [(7, "d")]]).getName 7 = some "d" ∧
    (calls Ex.R .empty [[(5, "b"), (7, "a"), (0, "c")], [(7, "d")]]).getType "c" = some 7 ∧
    (calls Ex.R .empty [[(5, "b"), (7, "a"), (0, "c")], [(1, "d")]]).getType "d" = none := by decide +kernel

/-- **C102 is violated.**  A name can be given to another type by a later call; the type that had it keeps it, so that `GetName` answers with a
name of another type. -/
theorem C102_stale_name [LawfulKey N] [LawfulKey T] {R : Replace N T} {a : AMap N T} {n : N} {t t' : T}
    (h1 : a.getName t = some n) (h2 : ∀ get, R get t' = some t') (h3 : KeyOps.eq t t' = false) :
    ∃ a', collect R a [(t', n)] = some a' ∧ a'.getName t = some n ∧ a'.getType n = some t' := by
  refine ⟨⟨insert a.namedTypes (KeyOps.freeze n) t', insert a.typeNames t' (KeyOps.freeze n)⟩, ?_, ?_, ?_⟩
  · have : Spec.insert ([] : List (N × T)) n t' = [(KeyOps.freeze n, t')] := rfl
    simp [collect, insertAll, this, update, resolveAll, h2]
  · show lookup t (insert a.typeNames t' (KeyOps.freeze n)) = some n
    rw [lookup_insert, LawfulKey.comm, h3]
    exact h1
  · show lookup n (insert a.namedTypes (KeyOps.freeze n) t') = some t'
    rw [lookup_insert, LawfulKey.frz]
    rfl

example : (calls Ex.R .empty [[(5, "a")], [(7, "a")]]).getName 5 = some "a" ∧
    (calls Ex.R .empty [[(5, "a")], [(7, "a")]]).getType "a" = some 7 := by decide +kernel

/-- Two names for a type, where the later call gives the name that `GetName` finds: both names are read back as the type. -/
example : AllKeep Ex.R .empty [[(5, "b"), (7, "a"), (0, "c")], [(7, "d")]] := by
  refine ⟨?_, ?_, trivial⟩
  · intro n t h; cases h
  · intro n t h
    have hc := C102_call (R := Ex.R) (a := calls Ex.R .empty [[(5, "b"), (7, "a"), (0, "c")]]) (adds := [(7, "d")]) rfl
      (get := fun n => if n = "d" then some 7 else (calls Ex.R .empty [[(5, "b"), (7, "a"), (0, "c")]]).getType n) ?_
    · by_cases hn : n = "d"
      · subst hn; cases h
      · refine ⟨t, ?_, LawfulKey.refl t⟩
        rw [← h]
        exact hc.2.1 n (by simp [KeyOps.eq, hn])
    · intro m
      refine ⟨?_, ?_⟩
      · rintro t ⟨A, B, n', h0, h1, h2⟩
        cases A with
        | nil =>
          cases h0
          simp only [KeyOps.eq, beq_iff_eq] at h1
          subst h1; rfl
        | cons x A => cases A <;> cases h0
      · intro hm
        have := hm (7, "d") (by simp)
        simp only [KeyOps.eq, beq_eq_false_iff_ne] at this
        simp [this]

mutual
theorem declare_fresh [LawfulKey N] {mk : N → T} {a : AMap N T} : ∀ {adds adds' : List (T × N)} (d : Decl N T), declare mk a adds d = some adds' →
    (∀ e ∈ adds, a.getType e.2 = none) → ∀ e ∈ adds', a.getType e.2 = none
  | adds, adds', .mk n inner t, h, hf => by
    rw [declare] at h
    split at h
    · cases h
    · rename_i hn
      obtain ⟨r, hr, rfl⟩ := Option.map_eq_some_iff.1 h
      have hg : a.getType n = none := by
        unfold adderGet at hn
        cases hx : a.getType n with
        | none => rfl
        | some t' => rw [hx] at hn; exact absurd (by cases lookup n (insertAll [] (adds.map fun e => (e.2, e.1))) <;> rfl) hn
      have h1 := declareAll_fresh inner hr (by
        intro e he
        rcases List.mem_append.1 he with he | he
        · exact hf e he
        · rw [List.mem_singleton.1 he]; exact hg)
      intro e he
      rcases List.mem_append.1 he with he | he
      · exact h1 e he
      · rw [List.mem_singleton.1 he]; exact hg
theorem declareAll_fresh [LawfulKey N] {mk : N → T} {a : AMap N T} : ∀ {adds adds' : List (T × N)} (ds : List (Decl N T)),
    declareAll mk a adds ds = some adds' → (∀ e ∈ adds, a.getType e.2 = none) → ∀ e ∈ adds', a.getType e.2 = none
  | adds, adds', [], h, hf => by rw [declareAll] at h; cases h; exact hf
  | adds, adds', d :: ds, h, hf => by
    rw [declareAll] at h
    obtain ⟨x, hx, h⟩ := Option.bind_eq_some_iff.1 h
    exact declareAll_fresh ds h (declare_fresh d hx hf)
end

theorem getType_congr [LawfulKey N] {a : AMap N T} {n m : N} (h : KeyOps.eq n m = true) : a.getType n = a.getType m := by
  unfold AMap.getType Spec.lookup
  congr 2
  funext e
  exact LawfulKey.congr h e.1

theorem fresh_keeps [LawfulKey N] [LawfulKey T] {R : Replace N T} {a a' : AMap N T} {adds : List (T × N)} (h : collect R a adds = some a')
    (hf : ∀ e ∈ adds, a.getType e.2 = none) (n : N) (t : T) (hn : a.getType n = some t) : a'.getType n = some t := by
  obtain ⟨rs, hd, hl, _, rfl⟩ := collect_cases h
  have hno : ∀ e ∈ adds, KeyOps.eq n e.2 = false := by
    intro e he
    cases hx : KeyOps.eq n e.2 with
    | false => rfl
    | true => rw [getType_congr hx, hf e he] at hn; cases hn
  unfold AMap.getType at hn ⊢
  dsimp only
  rw [lookup_insertAll_last, lookup_reverse hd, hl, (noAdd_iff n adds).1 hno]
  exact hn

/-- **C102, where names are declared in texts only.**  `Parse` never gives a name that is in use to another type: whatever texts are parsed, a name
keeps its type, and the name that `GetName` finds for a type is the name of an equal type. -/
theorem C102_declared [LawfulKey N] [LawfulKey T] {R : Replace N T} {mk : N → T} (before after : List (List (Decl N T))) :
    (∀ n t, (parses R mk .empty before).getType n = some t → (parses R mk .empty (before ++ after)).getType n = some t) ∧
    (∀ n t, (parses R mk .empty before).getName t = some n →
      ∃ t', (parses R mk .empty before).getType n = some t' ∧ KeyOps.eq t t' = true) := by
  have step : ∀ (a : AMap N T) (ds : List (Decl N T)),
      (∀ n t, a.getType n = some t → (((declareAll mk a [] ds).bind (collect R a)).getD a).getType n = some t) ∧
      ((∀ n t, a.getName t = some n → ∃ t', a.getType n = some t' ∧ KeyOps.eq t t' = true) →
        ∀ n t, (((declareAll mk a [] ds).bind (collect R a)).getD a).getName t = some n →
          ∃ t', (((declareAll mk a [] ds).bind (collect R a)).getD a).getType n = some t' ∧ KeyOps.eq t t' = true) := by
    intro a ds
    cases hd : declareAll mk a [] ds with
    | none => exact ⟨fun _ _ h => h, fun h => h⟩
    | some adds =>
      have hf := declareAll_fresh ds hd (by simp)
      rw [Option.bind_some]
      cases hc : collect R a adds with
      | none => exact ⟨fun _ _ h => h, fun h => h⟩
      | some a' =>
        refine ⟨fresh_keeps hc hf, fun h => inverse_step hc ?_ h⟩
        exact fun n t hn => ⟨t, fresh_keeps hc hf n t hn, LawfulKey.refl t⟩
  have app : ∀ (xs ys : List (List (Decl N T))) (a : AMap N T), parses R mk a (xs ++ ys) = parses R mk (parses R mk a xs) ys := by
    intro xs
    induction xs with
    | nil => intro ys a; rfl
    | cons x xs ih => intro ys a; rw [List.cons_append, parses, parses, ih]
  refine ⟨?_, ?_⟩
  · rw [app]
    generalize parses R mk .empty before = a
    induction after generalizing a with
    | nil => exact fun _ _ h => h
    | cons ds r ih => intro n t h; rw [parses]; exact ih _ n t ((step a ds).1 n t h)
  · suffices H : ∀ (xs : List (List (Decl N T))) (a : AMap N T), (∀ n t, a.getName t = some n → ∃ t', a.getType n = some t' ∧ KeyOps.eq t t' = true) →
        ∀ n t, (parses R mk a xs).getName t = some n → ∃ t', (parses R mk a xs).getType n = some t' ∧ KeyOps.eq t t' = true from
      H before .empty (by intro n t h; cases h)
    intro xs
    induction xs with
    | nil => exact fun _ h => h
    | cons ds r ih => intro a h; rw [parses]; exact ih _ ((step a ds).2 h)

/-- `a=5`, then `b=7` and `a=8` (refused), then `b=9` inside of `c=5` (refused) -/
example : (parses Ex.R (fun _ => 0) .empty [[.mk "a" [] 5], [.mk "b" [] 7], [.mk "a" [] 8], [.mk "c" [.mk "b" [] 9] 5], [.mk "d" [] 5]]).getType "a" = some 5 ∧
    (parses Ex.R (fun _ => 0) .empty [[.mk "a" [] 5], [.mk "b" [] 7], [.mk "a" [] 8], [.mk "c" [.mk "b" [] 9] 5], [.mk "d" [] 5]]).getType "c" = none ∧
    (parses Ex.R (fun _ => 0) .empty [[.mk "a" [] 5], [.mk "b" [] 7], [.mk "a" [] 8], [.mk "c" [.mk "b" [] 9] 5], [.mk "d" [] 5]]).getName 5 = some "d" := by
  decide +kernel

mutual
theorem declare_names {mk : N → T} {a : AMap N T} : ∀ {adds adds' : List (T × N)} (d : Decl N T), declare mk a adds d = some adds' →
    (∀ e ∈ adds, e ∈ adds') ∧ ∀ n ∈ d.names, ∃ t, (t, n) ∈ adds'
  | adds, adds', .mk n inner t, h => by
    rw [declare] at h
    split at h
    · cases h
    · obtain ⟨r, hr, rfl⟩ := Option.map_eq_some_iff.1 h
      obtain ⟨h1, h2⟩ := declareAll_names inner hr
      refine ⟨fun e he => List.mem_append_left _ (h1 e (List.mem_append_left _ he)), fun m hm => ?_⟩
      rw [Decl.names] at hm
      rcases List.mem_cons.1 hm with rfl | hm
      · exact ⟨t, by simp⟩
      · obtain ⟨t', ht⟩ := h2 m hm
        exact ⟨t', List.mem_append_left _ ht⟩
theorem declareAll_names {mk : N → T} {a : AMap N T} : ∀ {adds adds' : List (T × N)} (ds : List (Decl N T)),
    declareAll mk a adds ds = some adds' → (∀ e ∈ adds, e ∈ adds') ∧ ∀ n ∈ namesOf ds, ∃ t, (t, n) ∈ adds'
  | adds, adds', [], h => by rw [declareAll] at h; cases h; exact ⟨fun _ h => h, by simp [namesOf]⟩
  | adds, adds', d :: ds, h => by
    rw [declareAll] at h
    obtain ⟨x, hx, h⟩ := Option.bind_eq_some_iff.1 h
    obtain ⟨h1, h2⟩ := declare_names d hx
    obtain ⟨h3, h4⟩ := declareAll_names ds h
    refine ⟨fun e he => h3 e (h1 e he), fun m hm => ?_⟩
    rw [namesOf] at hm
    rcases List.mem_append.1 hm with hm | hm
    · obtain ⟨t, ht⟩ := h2 m hm
      exact ⟨t, h3 _ ht⟩
    · exact h4 m hm
end

/-- **C102, redeclaring is refused**: a text that declares, anywhere, a name that is in use is not read, and changes nothing. -/
theorem C102_redeclared [LawfulKey N] {R : Replace N T} {mk : N → T} {a : AMap N T} {ds : List (Decl N T)} {n : N} {t : T} (hn : n ∈ namesOf ds)
    (h : a.getType n = some t) : declareAll mk a [] ds = none ∧ parses R mk a [ds] = a := by
  have : declareAll mk a [] ds = none := by
    cases hd : declareAll mk a [] ds with
    | none => rfl
    | some adds =>
      obtain ⟨t', ht⟩ := (declareAll_names ds hd).2 n hn
      rw [declareAll_fresh ds hd (by simp) _ ht] at h
      cases h
  exact ⟨this, by rw [parses, this]; rfl⟩
example : "b" ∈ namesOf [Decl.mk "c" [.mk "b" [] 9] 5] ∧ (parses Ex.R (fun _ => 0) .empty [[.mk "b" [] 7]]).getType "b" = some 7 := by
  decide +kernel

end Verif.Alias
