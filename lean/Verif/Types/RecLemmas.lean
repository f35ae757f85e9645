import Verif.Types.RecSpec
/-!
# Lemmas about Instance of types that contain themselves
-/
set_option autoImplicit false
set_option linter.unusedVariables false
set_option linter.unusedSimpArgs false
namespace Verif.Types.Rec
open Verif.Value

/-- The answer `b` errs to neither side that counts. -/
def Fits (up down : Prop) (b : Bool) (q : Prop) : Prop := (up → q → b = true) ∧ (down → b = true → q)

/-- The check gives an answer that fits, and a guard with `P`. -/
def Res (P : G → Prop) (up down : Prop) (c : Check) (q : Prop) : Prop := ∃ b g', c = some (b, g') ∧ P g' ∧ Fits up down b q

variable {P : G → Prop} {up down : Prop}

theorem Fits.congr {b : Bool} {q q' : Prop} (h : Fits up down b q) (e : q ↔ q') : Fits up down b q' := by rwa [Fits, ← e]

theorem Res.congr {c : Check} {q q' : Prop} (h : Res P up down c q) (e : q ↔ q') : Res P up down c q' := by
  obtain ⟨b, g, h1, h2, h3⟩ := h
  exact ⟨b, g, h1, h2, h3.congr e⟩

theorem res_false {g : G} {q : Prop} (hg : P g) (h : ¬ q) : Res P up down (some (false, g)) q :=
  ⟨false, g, rfl, hg, fun _ hq => absurd hq h, fun _ hb => by cases hb⟩

theorem res_true {g : G} {q : Prop} (hg : P g) (h : q) : Res P up down (some (true, g)) q :=
  ⟨true, g, rfl, hg, fun _ _ => rfl, fun _ _ => h⟩

theorem all_res {α : Type} {f : G → α → Check} {Q : α → Prop} : (xs : List α) → {g : G} → P g →
    (∀ x ∈ xs, ∀ g, P g → Res P up down (f g x) (Q x)) → Res P up down (allG f g xs) (∀ x ∈ xs, Q x)
  | [], g, hg, h => res_true hg (by simp)
  | x :: xs, g, hg, h => by
    obtain ⟨b, g', h1, h2, h3, h4⟩ := h x (by simp) g hg
    cases b
    · refine ⟨false, g', by simp [allG, h1], h2, fun hu hq => ?_, fun _ hb => by cases hb⟩
      exact h3 hu (hq x (by simp))
    · obtain ⟨b, g'', k1, k2, k3, k4⟩ := all_res xs h2 (fun y hy => h y (by simp [hy]))
      refine ⟨b, g'', by simp [allG, h1, k1], k2, fun hu hq => k3 hu (fun y hy => hq y (by simp [hy])), fun hd hb => ?_⟩
      intro y hy
      rcases List.mem_cons.1 hy with rfl | hy
      · exact h4 hd rfl
      · exact k4 hd hb y hy

theorem any_res {α : Type} {f : G → α → Check} {Q : α → Prop} : (xs : List α) → {g : G} → P g →
    (∀ x ∈ xs, ∀ g, P g → Res P up down (f g x) (Q x)) → Res P up down (anyG f g xs) (∃ x ∈ xs, Q x)
  | [], g, hg, h => res_false hg (by simp)
  | x :: xs, g, hg, h => by
    obtain ⟨b, g', h1, h2, h3, h4⟩ := h x (by simp) g hg
    cases b
    · obtain ⟨b, g'', k1, k2, k3, k4⟩ := any_res xs h2 (fun y hy => h y (by simp [hy]))
      refine ⟨b, g'', by simp [anyG, h1, k1], k2, fun hu hq => ?_, fun hd hb => ?_⟩
      · obtain ⟨y, hy, hq⟩ := hq
        rcases List.mem_cons.1 hy with rfl | hy
        · cases h3 hu hq
        · exact k3 hu ⟨y, hy, hq⟩
      · obtain ⟨y, hy, hq⟩ := k4 hd hb
        exact ⟨y, by simp [hy], hq⟩
    · refine ⟨true, g', by simp [anyG, h1], h2, fun _ _ => rfl, fun hd _ => ⟨x, by simp, h4 hd rfl⟩⟩

/-- Exactly one of the list -/
def One {α : Type} (Q : α → Prop) (xs : List α) : Prop := ∃ l t r, xs = l ++ t :: r ∧ Q t ∧ ∀ u ∈ l ++ r, ¬ Q u

theorem one_cons_pos {α : Type} {Q : α → Prop} {x : α} {xs : List α} (h : Q x) : One Q (x :: xs) ↔ ∀ u ∈ xs, ¬ Q u := by
  constructor
  · rintro ⟨l, t, r, e, ht, hn⟩
    cases l with
    | nil => simp only [List.nil_append, List.cons.injEq] at e; obtain ⟨rfl, rfl⟩ := e; simpa using hn
    | cons a l => simp only [List.cons_append, List.cons.injEq] at e; obtain ⟨rfl, rfl⟩ := e; exact absurd h (hn _ (by simp))
  · exact fun hn => ⟨[], x, xs, rfl, h, by simpa using hn⟩

theorem one_cons_neg {α : Type} {Q : α → Prop} {x : α} {xs : List α} (h : ¬ Q x) : One Q (x :: xs) ↔ One Q xs := by
  constructor
  · rintro ⟨l, t, r, e, ht, hn⟩
    cases l with
    | nil => simp only [List.nil_append, List.cons.injEq] at e; obtain ⟨rfl, rfl⟩ := e; exact absurd ht h
    | cons a l =>
      simp only [List.cons_append, List.cons.injEq] at e
      obtain ⟨rfl, rfl⟩ := e
      exact ⟨l, t, r, rfl, ht, fun u hu => hn u (by simp only [List.cons_append, List.mem_cons]; exact Or.inr hu)⟩
  · rintro ⟨l, t, r, rfl, ht, hn⟩
    refine ⟨x :: l, t, r, rfl, ht, fun u hu => ?_⟩
    simp only [List.cons_append, List.mem_cons] at hu
    rcases hu with rfl | hu
    · exact h
    · exact hn u hu

theorem one_returns {α : Type} {f : G → α → Check} {Q : α → Prop} : (xs : List α) → (found : Bool) → {g : G} → P g →
    (∀ x ∈ xs, ∀ g, P g → Res P up down (f g x) (Q x)) → ∃ b g', oneG f found g xs = some (b, g') ∧ P g'
  | [], found, g, hg, h => ⟨found, g, rfl, hg⟩
  | x :: xs, found, g, hg, h => by
    obtain ⟨b, g', h1, h2, h3⟩ := h x (by simp) g hg
    cases b
    · obtain ⟨b, g'', k1, k2⟩ := one_returns xs found h2 (fun y hy => h y (by simp [hy]))
      exact ⟨b, g'', by simp [oneG, h1, k1], k2⟩
    · cases found
      · obtain ⟨b, g'', k1, k2⟩ := one_returns xs true h2 (fun y hy => h y (by simp [hy]))
        exact ⟨b, g'', by simp [oneG, h1, k1], k2⟩
      · exact ⟨false, g', by simp [oneG, h1], h2⟩

theorem one_exact {α : Type} {f : G → α → Check} {Q : α → Prop} (hu : up) (hd : down) : (xs : List α) → (found : Bool) → {g : G} → P g →
    (∀ x ∈ xs, ∀ g, P g → Res P up down (f g x) (Q x)) →
    ∃ b g', oneG f found g xs = some (b, g') ∧ P g' ∧ (b = true ↔ if found = true then ∀ u ∈ xs, ¬ Q u else One Q xs)
  | [], found, g, hg, h => ⟨found, g, rfl, hg, by cases found <;> simp [One]⟩
  | x :: xs, found, g, hg, h => by
    obtain ⟨b, g', h1, h2, h3, h4⟩ := h x (by simp) g hg
    cases b
    · have hx : ¬ Q x := fun hq => by cases h3 hu hq
      obtain ⟨b, g'', k1, k2, k3⟩ := one_exact hu hd xs found h2 (fun y hy => h y (by simp [hy]))
      refine ⟨b, g'', by simp [oneG, h1, k1], k2, k3.trans ?_⟩
      cases found
      · simp [one_cons_neg hx]
      · simp [hx]
    · have hx : Q x := h4 hd rfl
      cases found
      · obtain ⟨b, g'', k1, k2, k3⟩ := one_exact hu hd xs true h2 (fun y hy => h y (by simp [hy]))
        refine ⟨b, g'', by simp [oneG, h1, k1], k2, k3.trans ?_⟩
        simp [one_cons_pos hx]
      · exact ⟨false, g', by simp [oneG, h1], h2, by simp [hx]⟩

theorem and_res {a : Check} {b : G → Check} {p q : Prop} (ha : Res P up down a p) (hb : ∀ g, P g → Res P up down (b g) q) :
    Res P up down (andG a b) (p ∧ q) := by
  obtain ⟨r, g, rfl, h2, h3, h4⟩ := ha
  cases r
  · exact ⟨false, g, rfl, h2, fun hu hq => h3 hu hq.1, fun _ hb => by cases hb⟩
  · obtain ⟨r, g', k1, k2, k3, k4⟩ := hb g h2
    exact ⟨r, g', k1, k2, fun hu hq => k3 hu hq.2, fun hd hr => ⟨h4 hd rfl, k4 hd hr⟩⟩

/-! ### The pairs of a tuple -/

theorem mem_zip {ts : List Nat} {vs : List V} {S : Nat → V → Prop} :
    (∀ x ∈ ts.zip vs, S x.1 x.2) ↔ ∀ (i : Nat) t x, ts[i]? = some t → vs[i]? = some x → S t x := by
  induction ts generalizing vs with
  | nil => simp
  | cons t ts ih =>
    cases vs with
    | nil => simp
    | cons v vs =>
      rw [List.zip_cons_cons, List.forall_mem_cons, ih]
      constructor
      · rintro ⟨h1, h2⟩ i t' x h h'
        cases i with
        | zero => simp only [List.getElem?_cons_zero, Option.some.injEq] at h h'; subst h h'; exact h1
        | succ i => exact h2 i t' x (by simpa using h) (by simpa using h')
      · exact fun h => ⟨h 0 t v rfl rfl, fun i t' x a b => h (i + 1) t' x (by simpa using a) (by simpa using b)⟩

theorem mem_variadic {S : Nat → V → Prop} : (ts : List Nat) → (vs : List V) → ts.length - 1 ≤ vs.length →
    ((∀ x ∈ variadicPairs ts vs, S x.1 x.2) ↔ ∀ (i : Nat) t x, ts[min i (ts.length - 1)]? = some t → vs[i]? = some x → S t x)
  | [], vs, _ => by simp [variadicPairs]
  | [t], vs, _ => by
    simp only [variadicPairs, List.mem_map, List.length_cons, List.length_nil, Nat.zero_add, Nat.sub_self, Nat.min_zero,
      List.getElem?_cons_zero, Option.some.injEq]
    constructor
    · rintro h i t' x rfl hx
      exact h (t, x) ⟨x, List.mem_of_getElem? hx, rfl⟩
    · rintro h _ ⟨x, hx, rfl⟩
      obtain ⟨i, hi⟩ := List.getElem?_of_mem hx
      exact h i t x rfl hi
  | t :: t' :: ts, [], h => by simp at h
  | t :: t' :: ts, v :: vs, h => by
    rw [variadicPairs, List.forall_mem_cons, mem_variadic (t' :: ts) vs (by simpa using h)]
    · constructor
      · rintro ⟨h1, h2⟩ i u x hu hx
        cases i with
        | zero => simp at hu hx; subst hu hx; exact h1
        | succ i =>
          refine h2 i u x ?_ (by simpa using hx)
          rw [← hu]
          simp only [List.length_cons, Nat.add_sub_cancel]
          rw [show min (i + 1) (ts.length + 1) = min i ts.length + 1 by omega]
          simp
      · intro h
        refine ⟨h 0 t v (by simp) (by simp), fun i u x hu hx => h (i + 1) u x ?_ (by simpa using hx)⟩
        rw [← hu]
        simp only [List.length_cons, Nat.add_sub_cancel]
        rw [show min (i + 1) (ts.length + 1) = min i ts.length + 1 by omega]
        simp
    · simp

theorem variadic_types : (ts : List Nat) → (vs : List V) → ∀ x ∈ variadicPairs ts vs, x.1 ∈ ts ∧ x.2 ∈ vs
  | [], vs, x, h => by simp [variadicPairs] at h
  | [t], vs, x, h => by
    simp only [variadicPairs, List.mem_map] at h
    obtain ⟨y, hy, rfl⟩ := h
    exact ⟨by simp, hy⟩
  | t :: t' :: ts, [], x, h => by simp [variadicPairs] at h
  | t :: t' :: ts, v :: vs, x, h => by
    rw [variadicPairs, List.mem_cons] at h
    · rcases h with rfl | h
      · exact ⟨by simp, by simp⟩
      · obtain ⟨h1, h2⟩ := variadic_types (t' :: ts) vs x h
        exact ⟨List.mem_cons_of_mem _ h1, List.mem_cons_of_mem _ h2⟩
    · simp

/-! ### Structs -/

theorem mapGet_mem {es : List (Val × V)} {k : Val} {x : V} (h : mapGet es k = some x) : ∃ k', (k', x) ∈ es := by
  rw [mapGet, Option.map_eq_some_iff] at h
  obtain ⟨⟨k', y⟩, h1, rfl⟩ := h
  exact ⟨k', List.mem_of_find?_eq_some h1⟩

theorem struct_res {rec : G → Nat → V → Check} {es : List (Val × V)} {S : Nat → V → Prop} : (fs : List (Val × Bool × Nat)) → (oc : Nat) →
    {g : G} → P g → (∀ f ∈ fs, ∀ x, mapGet es f.1 = some x → ∀ g, P g → Res P up down (rec g f.2.2 x) (S f.2.2 x)) →
    ∃ r g', structLoop rec es g oc fs = some (r, g') ∧ P g' ∧
      (up → (∀ f ∈ fs, (∀ x, mapGet es f.1 = some x → S f.2.2 x) ∧ (f.2.1 = true → (mapGet es f.1).isSome = true)) → r ≠ none) ∧
      (down → r ≠ none → ∀ f ∈ fs, (∀ x, mapGet es f.1 = some x → S f.2.2 x) ∧ (f.2.1 = true → (mapGet es f.1).isSome = true)) ∧
      ∀ n, r = some n → n = oc + (fs.filter fun f => (mapGet es f.1).isSome).length
  | [], oc, g, hg, h => ⟨some oc, g, rfl, hg, by simp, by simp, by rintro n ⟨⟩; simp⟩
  | (k, rq, t) :: fs, oc, g, hg, h => by
    cases hm : mapGet es k with
    | none =>
      cases rq
      · obtain ⟨r, g', k1, k2, k3, k4, k5⟩ := struct_res fs oc hg (fun f hf => h f (by simp [hf]))
        refine ⟨r, g', by simp [structLoop, hm, k1], k2, fun hu hq => k3 hu fun f hf => hq f (by simp [hf]), fun hd hr => ?_, ?_⟩
        · intro f hf
          rcases List.mem_cons.1 hf with rfl | hf
          · simp [hm]
          · exact k4 hd hr f hf
        · intro n hn; rw [k5 n hn]; simp [hm]
      · refine ⟨none, g, by simp [structLoop, hm], hg, fun hu hq => ?_, fun _ hr => absurd rfl hr, by simp⟩
        have := (hq (k, true, t) (by simp)).2 rfl
        simp [hm] at this
    | some x =>
      obtain ⟨b, g', h1, h2, h3, h4⟩ := h (k, rq, t) (by simp) x hm g hg
      dsimp only at h1 h3 h4
      cases b
      · refine ⟨none, g', by simp [structLoop, hm, h1], h2, fun hu hq => ?_, fun _ hr => absurd rfl hr, by simp⟩
        cases h3 hu ((hq (k, rq, t) (by simp)).1 x hm)
      · obtain ⟨r, g'', k1, k2, k3, k4, k5⟩ := struct_res fs (oc + 1) h2 (fun f hf => h f (by simp [hf]))
        refine ⟨r, g'', by simp [structLoop, hm, h1, k1], k2, fun hu hq => k3 hu fun f hf => hq f (by simp [hf]), fun hd hr => ?_, ?_⟩
        · intro f hf
          rcases List.mem_cons.1 hf with rfl | hf
          · refine ⟨fun y hy => ?_, fun _ => by simp [hm]⟩
            dsimp only at hy
            rw [hm] at hy; cases hy
            exact h4 hd rfl
          · exact k4 hd hr f hf
        · intro n hn; rw [k5 n hn]; simp [hm]; omega

/-! ### The values that a check asks about -/

/-- A check of `v` with `node` asks for `u` on `x`. -/
def Asks (H : Heap) (node : Node) (v : V) (u : Nat) (x : V) : Prop :=
  u ∈ node.refs ∧ ((node.isOp = true ∧ x = v) ∨ (node.isOp = false ∧ ∃ o, load H v = some o ∧ x ∈ o.parts))

theorem arrOf_some {H : Heap} {v : V} {es : List V} (h : arrOf H v = some es) : load H v = some (.arr es) := by
  rw [arrOf] at h; split at h
  · rename_i e; cases h; exact e
  · cases h

theorem mapOf_some {H : Heap} {v : V} {es : List (Val × V)} (h : mapOf H v = some es) : load H v = some (.map es) := by
  rw [mapOf] at h; split at h
  · rename_i e; cases h; exact e
  · cases h

theorem sensOf_some {H : Heap} {v : V} {x : V} (h : sensOf H v = some x) : load H v = some (.sens x) := by
  rw [sensOf] at h; split at h
  · rename_i e; cases h; exact e
  · cases h

theorem part_key {es : List (Val × V)} {e : Val × V} (h : e ∈ es) : V.atom e.1 ∈ (Obj.map es).parts := by
  rw [Obj.parts, List.mem_flatMap]; exact ⟨e, h, by simp⟩

theorem part_val {es : List (Val × V)} {e : Val × V} (h : e ∈ es) : e.2 ∈ (Obj.map es).parts := by
  rw [Obj.parts, List.mem_flatMap]; exact ⟨e, h, by simp⟩

theorem any_holds {T : Types} {H : Heap} {S : Nat → V → Prop} {t : Nat} (ha : isAny T t = true)
    (hany : ∀ t, isAny T t = true → ∀ v, S t v) (v : V) : S t v := hany t ha v

/-- The `DeepInstance` methods are right if the answers about the parts are. -/
theorem deep_res {T : Types} {H : Heap} {S : Nat → V → Prop} {rec : G → Nat → V → Check} {g : G} {v : V} (node : Node) (hd : node.isDeep = true)
    (hany : ∀ t, isAny T t = true → ∀ v, S t v) (hg : P g)
    (hone : node.isAnti = true → (up ∧ down) ∨ (¬ up ∧ ¬ down))
    (hrec : ∀ u x, Asks H node v u x → ∀ g, P g → Res P up down (rec g u x) (S u x))
    (hkey : ∀ u k, Asks H node v u (.atom k) → Res (fun _ => True) up down (rec none u (.atom k)) (S u (.atom k))) :
    Res P up down (deepInst T H rec g v node) (Says H S node v) := by
  cases node with
  | any => cases hd
  | prim p => cases hd
  | not p => cases hd
  | sens p => cases hd
  | exact p =>
    exact ⟨p v, g, rfl, hg, fun _ h => h, fun _ h => h⟩
  | arr e lo hi =>
    rw [deepInst, Says]
    split
    · rename_i vs hv
      have hl := arrOf_some hv
      split
      · rename_i hb
        split
        · rename_i ha
          exact res_true hg ⟨vs, hv, hb.1, hb.2, fun x _ => hany e ha x⟩
        · refine (all_res vs hg fun x hx g hg => hrec e x ⟨by simp [Node.refs], Or.inr ⟨rfl, _, hl, hx⟩⟩ g hg).congr ?_
          exact ⟨fun h => ⟨vs, hv, hb.1, hb.2, h⟩, by rintro ⟨_, e, _, _, h⟩; rw [hv] at e; cases e; exact h⟩
      · rename_i hb
        exact res_false hg (by rintro ⟨_, e, h1, h2, _⟩; rw [hv] at e; cases e; exact hb ⟨h1, h2⟩)
    · rename_i hv
      exact res_false hg (by rintro ⟨_, e, _⟩; rw [hv] at e; cases e)
  | tuple ts variadic =>
    rw [deepInst]
    split
    · rename_i vs hv
      have hl := arrOf_some hv
      cases variadic
      · rw [Says, if_neg (by simp)]
        split
        · rename_i hn
          exact res_false hg (by rintro ⟨_, e, h, _⟩; rw [hv] at e; cases e; exact hn h)
        · rename_i hn
          simp only [ne_eq, Decidable.not_not] at hn
          refine (all_res (ts.zip vs) hg fun x hx g hg => hrec x.1 x.2 ⟨(List.of_mem_zip hx).1, Or.inr ⟨rfl, _, hl, (List.of_mem_zip hx).2⟩⟩ g hg).congr ?_
          rw [mem_zip]
          exact ⟨fun h => ⟨vs, hv, hn, h⟩, by rintro ⟨_, e, _, h⟩; rw [hv] at e; cases e; exact h⟩
      · rw [Says, if_pos rfl]
        split
        · rename_i hn
          exact res_false hg (by rintro ⟨_, e, h, _⟩; rw [hv] at e; cases e; omega)
        · rename_i hn
          refine (all_res (variadicPairs ts vs) hg fun x hx g hg =>
            hrec x.1 x.2 ⟨(variadic_types ts vs x hx).1, Or.inr ⟨rfl, _, hl, (variadic_types ts vs x hx).2⟩⟩ g hg).congr ?_
          rw [mem_variadic ts vs (by omega)]
          exact ⟨fun h => ⟨vs, hv, by omega, h⟩, by rintro ⟨_, e, _, h⟩; rw [hv] at e; cases e; exact h⟩
    · rename_i hv
      refine res_false hg ?_
      cases variadic <;> (rw [Says]; rintro ⟨_, e, _⟩; rw [hv] at e; cases e)
  | map kt vt lo hi =>
    rw [deepInst, Says]
    split
    · rename_i es hv
      have hl := mapOf_some hv
      have hk : ∀ e ∈ es, Asks H (.map kt vt lo hi) v kt (.atom e.1) := fun e he =>
        ⟨by simp [Node.refs], Or.inr ⟨rfl, _, hl, part_key he⟩⟩
      have hx : ∀ e ∈ es, Asks H (.map kt vt lo hi) v vt e.2 := fun e he =>
        ⟨by simp [Node.refs], Or.inr ⟨rfl, _, hl, part_val he⟩⟩
      split
      · rename_i hb
        split
        · rename_i ha
          split
          · rename_i hb'
            exact res_true hg ⟨es, hv, hb.1, hb.2, fun e _ => ⟨hany kt ha _, hany vt hb' _⟩⟩
          · refine (all_res es hg fun e he g hg => hrec vt e.2 (hx e he) g hg).congr ?_
            exact ⟨fun h => ⟨es, hv, hb.1, hb.2, fun e he => ⟨hany kt ha _, h e he⟩⟩, by rintro ⟨_, e, _, _, h⟩; rw [hv] at e; cases e; exact fun e he => (h e he).2⟩
        · split
          · rename_i ha
            refine (all_res (Q := fun e => S kt (.atom e.1)) es hg fun e he g hg => ?_).congr ?_
            · obtain ⟨b, g', h1, _, h3⟩ := hkey kt e.1 (hk e he)
              exact ⟨b, g, by simp [h1], hg, h3⟩
            · exact ⟨fun h => ⟨es, hv, hb.1, hb.2, fun e he => ⟨h e he, hany vt ha _⟩⟩, by rintro ⟨_, e, _, _, h⟩; rw [hv] at e; cases e; exact fun e he => (h e he).1⟩
          · refine (all_res (Q := fun e => S kt (.atom e.1) ∧ S vt e.2) es hg fun e he g hg => ?_).congr ?_
            · exact and_res (hrec kt _ (hk e he) g hg) fun g hg => hrec vt _ (hx e he) g hg
            · exact ⟨fun h => ⟨es, hv, hb.1, hb.2, h⟩, by rintro ⟨_, e, _, _, h⟩; rw [hv] at e; cases e; exact h⟩
      · rename_i hb
        exact res_false hg (by rintro ⟨_, e, h1, h2, _⟩; rw [hv] at e; cases e; exact hb ⟨h1, h2⟩)
    · rename_i hv
      exact res_false hg (by rintro ⟨_, e, _⟩; rw [hv] at e; cases e)
  | struct additional fs =>
    rw [deepInst, Says]
    split
    · rename_i es hv
      have hl := mapOf_some hv
      obtain ⟨r, g', k1, k2, k3, k4, k5⟩ := struct_res (P := P) (up := up) (down := down) (rec := rec) (es := es) (S := S) fs 0 hg (by
        intro f hf x hx g hg
        obtain ⟨k, hk⟩ := mapGet_mem hx
        exact hrec _ _ ⟨by simp only [Node.refs, List.mem_map]; exact ⟨f, hf, rfl⟩, Or.inr ⟨rfl, _, hl, part_val hk⟩⟩ g hg)
      rw [k1]
      cases r with
      | none =>
        refine ⟨false, g', rfl, k2, fun hu hq => ?_, fun _ hb => by cases hb⟩
        obtain ⟨_, e, h1, _⟩ := hq
        rw [hv] at e; cases e
        exact absurd rfl (k3 hu h1)
      | some n =>
        have hn := k5 n rfl
        refine ⟨_, g', rfl, k2, fun hu hq => ?_, fun hd hb => ?_⟩
        · obtain ⟨_, e, _, h2⟩ := hq
          rw [hv] at e; cases e
          simp only [Bool.or_eq_true, beq_iff_eq]
          exact h2.imp id fun h => by omega
        · simp only [Bool.or_eq_true, beq_iff_eq] at hb
          exact ⟨es, hv, k4 hd (by simp), hb.imp id fun h => by omega⟩
    · rename_i hv
      exact res_false hg (by rintro ⟨_, e, _⟩; rw [hv] at e; cases e)
  | allOf ts =>
    rw [deepInst, Says]
    exact all_res ts hg fun t ht g hg => hrec t v ⟨ht, Or.inl ⟨rfl, rfl⟩⟩ g hg
  | anyOf ts =>
    rw [deepInst, Says]
    exact any_res ts hg fun t ht g hg => hrec t v ⟨ht, Or.inl ⟨rfl, rfl⟩⟩ g hg
  | oneOf ts =>
    rw [deepInst, Says]
    have hr : ∀ t ∈ ts, ∀ g, P g → Res P up down (rec g t v) (S t v) := fun t ht g hg => hrec t v ⟨ht, Or.inl ⟨rfl, rfl⟩⟩ g hg
    rcases hone rfl with ⟨hu, hd'⟩ | ⟨hu, hd'⟩
    · obtain ⟨b, g', h1, h2, h3⟩ := one_exact hu hd' ts false hg hr
      exact ⟨b, g', h1, h2, fun _ hq => h3.2 (by simpa [One] using hq), fun _ hb => by simpa [One] using h3.1 hb⟩
    · obtain ⟨b, g', h1, h2⟩ := one_returns ts false hg hr
      exact ⟨b, g', h1, h2, fun h => absurd h hu, fun h => absurd h hd'⟩

/-- So are the methods without a guard. -/
theorem leaf_res {H : Heap} {S : Nat → V → Prop} {rec : Nat → V → Option Bool} {v : V} (node : Node) (hd : node.isDeep = false)
    (hone : node.isAnti = true → (up ∧ down) ∨ (¬ up ∧ ¬ down))
    (hrec : ∀ u x, Asks H node v u x → ∃ b, rec u x = some b ∧ Fits up down b (S u x)) :
    ∃ b, leafInst H rec node v = some b ∧ Fits up down b (Says H S node v) := by
  cases node with
  | any => exact ⟨true, rfl, fun _ _ => rfl, fun _ _ => True.intro⟩
  | prim p => exact ⟨_, rfl, fun _ h => h, fun _ h => h⟩
  | not t =>
    obtain ⟨b, h1, h2, h3⟩ := hrec t v ⟨by simp [Node.refs], Or.inl ⟨rfl, rfl⟩⟩
    refine ⟨!b, by simp [leafInst, h1], ?_⟩
    rcases hone rfl with ⟨hu, hd'⟩ | ⟨hu, hd'⟩
    · refine ⟨fun _ hq => ?_, fun _ hb hq => ?_⟩
      · cases b
        · rfl
        · exact absurd (h3 hd' rfl) hq
      · rw [h2 hu hq] at hb; cases hb
    · exact ⟨fun h => absurd h hu, fun h => absurd h hd'⟩
  | sens t =>
    rw [leafInst, Says]
    split
    · rename_i x hx
      obtain ⟨b, h1, h2⟩ := hrec t x ⟨by simp [Node.refs], Or.inr ⟨rfl, _, sensOf_some hx, by simp [Obj.parts]⟩⟩
      exact ⟨b, h1, h2.congr ⟨fun h => ⟨x, hx, h⟩, by rintro ⟨_, e, h⟩; rw [hx] at e; cases e; exact h⟩⟩
    · rename_i hx
      exact ⟨false, rfl, fun _ ⟨_, e, _⟩ => by (rw [hx] at e; cases e), fun _ h => by cases h⟩
  | exact p => cases hd
  | arr e lo hi => cases hd
  | tuple ts b => cases hd
  | map k v lo hi => cases hd
  | struct a fs => cases hd
  | allOf ts => cases hd
  | anyOf ts => cases hd
  | oneOf ts => cases hd

end Verif.Types.Rec
