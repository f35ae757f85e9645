import Verif.Types.Assign
import Verif.Types.InstHas
/-!
# The fuel of Equals, Instance and Assignable is enough
-/
set_option autoImplicit false
set_option linter.unusedVariables false
set_option linter.unusedSimpArgs false
namespace Verif.Types
open Verif.Value

/-! ## Equals -/

theorem takeFirst_congr {β : Type} {p q : β → Bool} {bs : List β} (h : ∀ b ∈ bs, p b = q b) : takeFirst p bs = takeFirst q bs := by
  induction bs with
  | nil => rfl
  | cons b bs ih => simp only [takeFirst, h b (by simp), ih fun x hx => h x (by simp [hx])]

theorem takeFirst_sub {β : Type} {p : β → Bool} {bs bs' : List β} (h : takeFirst p bs = some bs') : ∀ b ∈ bs', b ∈ bs := by
  induction bs generalizing bs' with
  | nil => simp [takeFirst] at h
  | cons b bs ih =>
    rw [takeFirst] at h
    split at h
    · simp only [Option.some.injEq] at h; subst h; intro x hx; simp [hx]
    · simp only [Option.map_eq_some_iff] at h
      obtain ⟨r, hr, rfl⟩ := h
      intro x hx
      simp only [List.mem_cons] at hx ⊢
      rcases hx with hx | hx
      · exact .inl hx
      · exact .inr (ih hr x hx)

theorem matchAll_congr {α β : Type} {p q : β → α → Bool} {as : List α} {bs : List β} (h : ∀ a ∈ as, ∀ b ∈ bs, p b a = q b a) :
    matchAll p as bs = matchAll q as bs := by
  induction as generalizing bs with
  | nil => rfl
  | cons a as ih =>
    simp only [matchAll]
    rw [takeFirst_congr (p := fun b => p b a) (q := fun b => q b a) fun b hb => h a (by simp) b hb]
    cases hq : takeFirst (fun b => q b a) bs with
    | none => rfl
    | some bs' => exact ih fun a' ha b hb => h a' (by simp [ha]) b (takeFirst_sub hq b hb)

theorem sameValues_congr {α β : Type} {p q : β → α → Bool} {as : List α} {bs : List β} (h : ∀ a ∈ as, ∀ b ∈ bs, p b a = q b a) :
    sameValues p as bs = sameValues q as bs := by
  rw [sameValues, sameValues, matchAll_congr h]

theorem zipAll_congr {α β : Type} {p q : α → β → Bool} {as : List α} : ∀ {bs : List β}, (∀ a ∈ as, ∀ b ∈ bs, p a b = q a b) →
    zipAll p as bs = zipAll q as bs := by
  induction as with
  | nil => intro bs _; cases bs <;> rfl
  | cons a as ih =>
    intro bs h
    cases bs with
    | nil => rfl
    | cons b bs => rw [zipAll, zipAll, h a (by simp) b (by simp), ih (bs := bs) fun x hx y hy => h x (by simp [hx]) y (by simp [hy])]

theorem typesOf_depth {o : Oid} {vs : List Val} {t : Ty} (h : t ∈ typesOf o vs) : t.depth ≤ vdepths vs + 1 := by
  obtain ⟨k, hk⟩ := typesOf_ok o vs t h
  exact hk.depth

theorem key_depth {f : Val × Bool × Ty} {fs : List (Val × Bool × Ty)} (h : f ∈ fs) : vdepth f.1 + 1 ≤ depthFields fs := by
  induction fs with
  | nil => simp at h
  | cons g r ih =>
    obtain ⟨k, rq, t⟩ := g
    rw [depthFields]
    rcases List.mem_cons.1 h with rfl | h
    · simp only; omega
    · have := ih h; omega

theorem leafEq_congr {r r' : Ty → Ty → Bool} {a b : Ty} (h : ∀ c d, c.depth < a.depth → d.depth < b.depth → r c d = r' c d) :
    leafEq r a b = leafEq r' a b := by
  unfold leafEq
  split <;> first | rfl | exact h _ _ (by simp [Ty.depth]) (by simp [Ty.depth])

theorem deepEq_congr {r r' : Ty → Ty → Bool} {a b : Ty} (h : ∀ c d, (c.depth < a.depth ∧ d.depth < b.depth) ∨ (c.depth < b.depth ∧ d.depth < a.depth) →
    r c d = r' c d) : deepEq r a b = deepEq r' a b := by
  unfold deepEq
  split
  · rfl
  · rw [h _ _ (.inl ⟨by simp [Ty.depth], by simp [Ty.depth]⟩)]
  · rw [zipAll_congr fun x hx y hy => h x y (.inl ⟨by have := depth_le_depths hx; simp only [Ty.depth]; omega, by have := depth_le_depths hy; simp only [Ty.depth]; omega⟩)]
  · rw [zipAll_congr fun x hx y hy => h x y (.inl ⟨by have := depth_le_depths hx; simp only [Ty.depth]; omega,
      by have := typesOf_depth hy; simp only [Ty.depth, vdepth]; omega⟩)]
  · rw [h _ _ (.inl ⟨by simp only [Ty.depth]; omega, by simp only [Ty.depth]; omega⟩), h _ _ (.inl ⟨by simp only [Ty.depth]; omega, by simp only [Ty.depth]; omega⟩)]
  · rw [zipAll_congr (p := fun f f' : Val × Bool × Ty => r f.2.2 f'.2.2) (q := fun f f' => r' f.2.2 f'.2.2) fun x hx y hy =>
      h x.2.2 y.2.2 (.inl ⟨by have := depth_le_depthFields hx; simp only [Ty.depth]; omega, by have := depth_le_depthFields hy; simp only [Ty.depth]; omega⟩)]
  · exact sameValues_congr fun x hx y hy => h y x (.inr ⟨by have := depth_le_depths hy; simp only [Ty.depth]; omega, by have := depth_le_depths hx; simp only [Ty.depth]; omega⟩)
  · exact sameValues_congr fun x hx y hy => h y x (.inr ⟨by have := typesOf_depth hy; simp only [Ty.depth]; omega, by have := depth_le_depths hx; simp only [Ty.depth]; omega⟩)
  · rfl
  · exact sameValues_congr fun x hx y hy => h y x (.inl ⟨by have := typesOf_depth hy; simp only [Ty.depth]; omega, by have := depth_le_depths hx; simp only [Ty.depth]; omega⟩)
  · exact sameValues_congr fun x hx y hy => h y x (.inr ⟨by have := depth_le_depths hy; simp only [Ty.depth]; omega, by have := depth_le_depths hx; simp only [Ty.depth]; omega⟩)
  · exact sameValues_congr fun x hx y hy => h y x (.inr ⟨by have := depth_le_depths hy; simp only [Ty.depth]; omega, by have := depth_le_depths hx; simp only [Ty.depth]; omega⟩)
  · exact h _ _ (.inl ⟨by simp [Ty.depth], by simp [Ty.depth]⟩)
  · rfl

/-- With more fuel `Equals` answers the same. -/
theorem tyEq_succ : ∀ (n : Nat) (seen : List Oid) (a b : Ty), a.depth < n → b.depth < n → tyEq (n + 1) seen a b = tyEq n seen a b
  | 0, _, _, _, h, _ => by omega
  | n + 1, seen, a, b, ha, hb => by
    rw [tyEq, tyEq]
    split
    · exact leafEq_congr fun c d hc hd => tyEq_succ n [] c d (by omega) (by omega)
    · split
      · rfl
      · split
        · rfl
        · exact deepEq_congr fun c d h => tyEq_succ n _ c d (by omega) (by omega)

theorem tyEq_fuel {n : Nat} {seen : List Oid} {a b : Ty} (ha : a.depth < n) (hb : b.depth < n) : ∀ k, tyEq (n + k) seen a b = tyEq n seen a b
  | 0 => rfl
  | k + 1 => by rw [← Nat.add_assoc, tyEq_succ _ _ _ _ (by omega) (by omega), tyEq_fuel ha hb k]

/-! ## Loops with a guard -/

/-- The two checks answer alike, and do answer. -/
def Same (c d : Check) : Prop := c = d ∧ c ≠ none

theorem Same.some {r : Bool × G} : Same (some r) (some r) := ⟨rfl, by simp⟩

theorem Same.map {c d : Check} (h : Same c d) (f : Bool × G → Bool × G) : Same (c.map f) (d.map f) := by
  obtain ⟨rfl, h⟩ := h
  exact ⟨rfl, by simpa using h⟩

theorem Same.cases {c d : Check} (h : Same c d) : ∃ r, c = Option.some r ∧ d = Option.some r := by
  obtain ⟨rfl, h⟩ := h
  obtain ⟨r, hr⟩ := Option.ne_none_iff_exists'.1 h
  exact ⟨r, hr, hr⟩

theorem allG_same {α : Type} {f f' : G → α → Check} {xs : List α} (h : ∀ x ∈ xs, ∀ g, Same (f g x) (f' g x)) :
    ∀ g, Same (allG f g xs) (allG f' g xs) := by
  induction xs with
  | nil => intro g; exact .some
  | cons x xs ih =>
    intro g
    obtain ⟨⟨b, g'⟩, h1, h2⟩ := (h x (by simp) g).cases
    rw [allG, allG, h1, h2]
    cases b
    · exact .some
    · exact ih (fun y hy => h y (by simp [hy])) g'

theorem anyG_same {α : Type} {f f' : G → α → Check} {xs : List α} (h : ∀ x ∈ xs, ∀ g, Same (f g x) (f' g x)) :
    ∀ g, Same (anyG f g xs) (anyG f' g xs) := by
  induction xs with
  | nil => intro g; exact .some
  | cons x xs ih =>
    intro g
    obtain ⟨⟨b, g'⟩, h1, h2⟩ := (h x (by simp) g).cases
    rw [anyG, anyG, h1, h2]
    cases b
    · exact ih (fun y hy => h y (by simp [hy])) g'
    · exact .some

theorem oneG_same {α : Type} {f f' : G → α → Check} {xs : List α} (h : ∀ x ∈ xs, ∀ g, Same (f g x) (f' g x)) :
    ∀ found g, Same (oneG f found g xs) (oneG f' found g xs) := by
  induction xs with
  | nil => intro found g; exact .some
  | cons x xs ih =>
    intro found g
    obtain ⟨⟨b, g'⟩, h1, h2⟩ := (h x (by simp) g).cases
    rw [oneG, oneG, h1, h2]
    cases b
    · exact ih (fun y hy => h y (by simp [hy])) _ g'
    · cases found
      · exact ih (fun y hy => h y (by simp [hy])) _ g'
      · exact .some

theorem andG_same {c d : Check} {f f' : G → Check} (h : Same c d) (hf : ∀ g, Same (f g) (f' g)) : Same (andG c f) (andG d f') := by
  obtain ⟨⟨b, g'⟩, h1, h2⟩ := h.cases
  rw [h1, h2]
  cases b
  · exact .some
  · exact hf g'

theorem allO_same {α : Type} {f f' : α → Option Bool} {xs : List α} (h : ∀ x ∈ xs, f x = f' x ∧ f x ≠ none) :
    allO f xs = allO f' xs ∧ allO f xs ≠ none := by
  induction xs with
  | nil => simp [allO]
  | cons x xs ih =>
    obtain ⟨h1, h2⟩ := h x (by simp)
    obtain ⟨b, hb⟩ := Option.ne_none_iff_exists'.1 h2
    rw [allO, allO, ← h1, hb]
    cases b
    · simp
    · exact ih fun y hy => h y (by simp [hy])

theorem anyO_same {α : Type} {f f' : α → Option Bool} {xs : List α} (h : ∀ x ∈ xs, f x = f' x ∧ f x ≠ none) :
    anyO f xs = anyO f' xs ∧ anyO f xs ≠ none := by
  induction xs with
  | nil => simp [anyO]
  | cons x xs ih =>
    obtain ⟨h1, h2⟩ := h x (by simp)
    obtain ⟨b, hb⟩ := Option.ne_none_iff_exists'.1 h2
    rw [anyO, anyO, ← h1, hb]
    cases b
    · exact ih fun y hy => h y (by simp [hy])
    · simp

theorem oneO_same {α : Type} {f f' : α → Option Bool} {xs : List α} (h : ∀ x ∈ xs, f x = f' x ∧ f x ≠ none) :
    ∀ found, oneO f found xs = oneO f' found xs ∧ oneO f found xs ≠ none := by
  induction xs with
  | nil => simp [oneO]
  | cons x xs ih =>
    intro found
    obtain ⟨h1, h2⟩ := h x (by simp)
    obtain ⟨b, hb⟩ := Option.ne_none_iff_exists'.1 h2
    rw [oneO, oneO, ← h1, hb]
    cases b
    · exact ih (fun y hy => h y (by simp [hy])) _
    · cases found
      · exact ih (fun y hy => h y (by simp [hy])) _
      · simp

/-! ## Instance -/

theorem structLoop_same {f f' : G → Ty → Oid × Val → Check} {p : Oid} {es : List (Val × Val)} {fs : List (Val × Bool × Ty)}
    (h : ∀ x ∈ fs, ∀ g pv, Same (f g x.2.2 pv) (f' g x.2.2 pv)) : ∀ g oc,
    structLoop f p es g oc fs = structLoop f' p es g oc fs ∧ structLoop f p es g oc fs ≠ none := by
  induction fs with
  | nil => intro g oc; simp [structLoop]
  | cons x fs ih =>
    obtain ⟨k, rq, t⟩ := x
    have ih' := ih fun y hy => h y (by simp [hy])
    intro g oc
    rw [structLoop, structLoop]
    split
    · rename_i v hv
      obtain ⟨⟨b, g'⟩, h1, h2⟩ := (h (k, rq, t) (by simp) g (.part p (2 * fs.length + 1), v)).cases
      simp only at h1 h2
      rw [h1, h2]
      cases b
      · simp
      · exact ih' _ _
    · split
      · simp
      · exact ih' _ _

theorem deepInst_same {f f' : G → Ty → Oid × Val → Check} {t : Ty} (h : ∀ c, c.depth < t.depth → ∀ g pv, Same (f g c pv) (f' g c pv))
    (g : G) (p : Oid) (v : Val) : Same (deepInst f g p v t) (deepInst f' g p v t) := by
  cases t with
  | sizedArr o e lo hi =>
    have he := h e (by simp [Ty.depth])
    simp only [deepInst]
    split <;> try exact .some
    split <;> try exact .some
    split
    · exact .some
    · exact allG_same (fun x hx g => he g x) g
  | tuple o ts var =>
    have hts : ∀ t ∈ ts, ∀ g pv, Same (f g t pv) (f' g t pv) := fun t ht => h t (by have := depth_le_depths ht; simp only [Ty.depth]; omega)
    simp only [deepInst]
    split <;> try exact .some
    split
    · split
      · exact .some
      · exact allG_same (fun x hx g => hts _ (variadicPairs_mem hx) g _) g
    · split
      · exact .some
      · exact allG_same (fun x hx g => hts _ (List.of_mem_zip (a := x.1) (b := x.2) hx).1 g _) g
  | sizedMap o k t lo hi =>
    have hk := h k (by simp only [Ty.depth]; omega)
    have ht := h t (by simp only [Ty.depth]; omega)
    simp only [deepInst]
    split <;> try exact .some
    split <;> try exact .some
    split
    · split
      · exact .some
      · exact allG_same (fun x hx g => ht _ _) g
    · split
      · exact allG_same (fun x hx g => (hk _ _).map _) g
      · exact allG_same (fun x hx g => andG_same (hk _ _) fun g => ht _ _) g
  | struct o add fs =>
    simp only [deepInst]
    split <;> try exact .some
    rename_i es
    obtain ⟨h1, h2⟩ := structLoop_same (f := f) (f' := f') (p := p) (es := es) (fs := fs)
      (fun x hx => h x.2.2 (by have := depth_le_depthFields hx; simp only [Ty.depth]; omega)) g 0
    rw [← h1]
    obtain ⟨r, hr⟩ := Option.ne_none_iff_exists'.1 h2
    rw [hr]
    split <;> first | exact .some | simp_all
  | allOf o ts => exact allG_same (fun x hx g => h x (by have := depth_le_depths hx; simp only [Ty.depth]; omega) _ _) g
  | allOfVal o ts => exact allG_same (fun x hx g => h x (by have := typesOf_depth hx; simp only [Ty.depth]; omega) _ _) g
  | anyOf o ts => exact anyG_same (fun x hx g => h x (by have := depth_le_depths hx; simp only [Ty.depth]; omega) _ _) g
  | oneOf o ts => exact oneG_same (fun x hx g => h x (by have := depth_le_depths hx; simp only [Ty.depth]; omega) _ _) _ g
  | _ => exact .some

theorem leafInst_same {E : Env} {r r' : Ty → Oid → Val → Option Bool} {t : Ty} (h : ∀ c, c.depth < t.depth → ∀ p v, r c p v = r' c p v ∧ r c p v ≠ none)
    (p : Oid) (v : Val) : leafInst E r p t v = leafInst E r' p t v ∧ leafInst E r p t v ≠ none := by
  unfold leafInst
  split
  case h_18 t =>
    obtain ⟨h1, h2⟩ := h t (by simp [Ty.depth]) p v
    rw [← h1]; simpa using h2
  case h_19 t v => exact h t (by simp [Ty.depth]) _ _
  all_goals simp

theorem inst_succ {E : Env} : ∀ (n : Nat) (g : G) (t : Ty) (pv : Oid × Val), t.depth < n → Same (inst E (n + 1) g t pv) (inst E n g t pv)
  | 0, _, _, _, h => by omega
  | n + 1, g, t, (p, v), h => by
    have ih : ∀ c, c.depth < t.depth → ∀ g pv, Same (inst E (n + 1) g c pv) (inst E n g c pv) := fun c hc g pv => inst_succ n g c pv (by omega)
    rw [inst, inst]
    split
    · obtain ⟨h1, h2⟩ := leafInst_same (E := E) (t := t) (r := fun t p v => (inst E (n + 1) none t (p, v)).map (·.1))
        (r' := fun t p v => (inst E n none t (p, v)).map (·.1)) (fun c hc p v => by
          obtain ⟨h1, h2⟩ := ih c hc none (p, v); exact ⟨by rw [h1], by simpa using h2⟩) p v
      rw [← h1]
      exact ⟨rfl, by simpa using h2⟩
    · split
      · split
        · exact (deepInst_same ih _ _ _).map _
        · simp only
          split
          · exact .some
          · exact (deepInst_same ih _ _ _).map _
      · exact deepInst_same ih _ _ _

/-! ## Assignable -/

theorem uniqueTy_congr {E : Env} {r r' : Ty → Ty → Bool} {ts : List Ty} : ∀ {u : List Ty}, (∀ a ∈ u ++ ts, ∀ b ∈ u ++ ts, r a b = r' a b) →
    uniqueTy E r u ts = uniqueTy E r' u ts := by
  induction ts with
  | nil => intros; rfl
  | cons t ts ih =>
    intro u h
    have hu : (u.any fun x => E.slot t x && r t x) = u.any fun x => E.slot t x && r' t x := by
      rw [Bool.eq_iff_iff, List.any_eq_true, List.any_eq_true]
      constructor <;> rintro ⟨x, hx, h'⟩ <;> refine ⟨x, hx, ?_⟩
      · rwa [← h t (by simp) x (by simp [hx])]
      · rwa [h t (by simp) x (by simp [hx])]
    rw [uniqueTy, uniqueTy, hu]
    split
    · exact ih fun a ha b hb => h a (by simp at ha ⊢; grind) b (by simp at hb ⊢; grind)
    · exact ih fun a ha b hb => h a (by simp at ha ⊢; grind) b (by simp at hb ⊢; grind)

theorem uniqueTy_sub {E : Env} {r : Ty → Ty → Bool} {ts : List Ty} : ∀ {u : List Ty}, ∀ t ∈ uniqueTy E r u ts, t ∈ u ++ ts := by
  induction ts with
  | nil => intro u t h; simpa [uniqueTy] using h
  | cons x ts ih =>
    intro u t h
    rw [uniqueTy] at h
    split at h
    · have := ih t h; simp at this ⊢; grind
    · have := ih t h; simp at this ⊢; grind

theorem arrayType_congr {E : Env} {r r' : Ty → Ty → Bool} {t : Ty} (h : ∀ a b, a.depth < t.depth → b.depth < t.depth → r a b = r' a b) :
    t.arrayType? E r = t.arrayType? E r' := by
  cases t with
  | tuple o ts var =>
    have hts : ∀ x ∈ ts, x.depth < Ty.depth (.tuple o ts var) := fun x hx => by have := depth_le_depths hx; simp only [Ty.depth]; omega
    have : uniqueTy E r [] ts = uniqueTy E r' [] ts := uniqueTy_congr fun a ha b hb => h a b (hts a (by simpa using ha)) (hts b (by simpa using hb))
    simp only [Ty.arrayType?, this]
  | exactD o v => cases v <;> rfl
  | _ => rfl

/-- The element type is less deep than the type, or else is a conjunction. -/
theorem arrayType_depth {E : Env} {r : Ty → Ty → Bool} {t e : Ty} {lo hi : Int} (h : t.arrayType? E r = some (lo, hi, e)) :
    e.depth ≤ t.depth := by
  cases t with
  | arrT => simp only [Ty.arrayType?, Option.some.injEq, Prod.mk.injEq] at h; obtain ⟨_, _, rfl⟩ := h; simp [Ty.depth]
  | sizedArr o e' lo hi => simp only [Ty.arrayType?, Option.some.injEq, Prod.mk.injEq] at h; obtain ⟨_, _, rfl⟩ := h; simp [Ty.depth]
  | tuple o ts var =>
    simp only [Ty.arrayType?, Option.some.injEq, Prod.mk.injEq] at h
    obtain ⟨_, _, rfl⟩ := h
    simp only [Ty.depth]
    split
    · simp [Ty.depth]
    · simp only [depths]; omega
    · split
      · rename_i x hx
        have := depth_le_depths (show x ∈ ts by simpa using uniqueTy_sub (u := []) x (by rw [hx]; simp))
        omega
      · have : depths (uniqueTy E r [] ts) ≤ depths ts := depths_le fun t ht => depth_le_depths (by simpa using uniqueTy_sub (u := []) t ht)
        simp only [Ty.depth]; omega
  | exactD o v =>
    cases v with
    | arr vs =>
      simp only [Ty.arrayType?, Option.some.injEq, Prod.mk.injEq] at h
      obtain ⟨_, _, rfl⟩ := h
      simp only [Ty.depth, vdepth]
      split
      · simp [Ty.depth]
      · rename_i v _ _
        have := (typeOf_ok (.part o 0) v).depth
        simp only [vdepths]; omega
      · simp [Ty.depth]
    | _ => simp [Ty.arrayType?] at h
  | _ => simp [Ty.arrayType?] at h

theorem fieldKeys_mem {o : Oid} {fs : List (Val × Bool × Ty)} {t : Ty} (h : t ∈ fieldKeys o fs) : ∃ k, ∃ f ∈ fs, t = typeOf (.part o k) f.1 := by
  induction fs with
  | nil => simp [fieldKeys] at h
  | cons f fs ih =>
    obtain ⟨k, rq, t'⟩ := f
    rw [fieldKeys] at h
    rcases List.mem_cons.1 h with rfl | h
    · exact ⟨_, _, List.mem_cons_self .., rfl⟩
    · obtain ⟨k', f', hf', rfl⟩ := ih h
      exact ⟨k', f', by simp [hf'], rfl⟩

theorem vdepths_keys : (es : List (Val × Val)) → vdepths (es.map (·.1)) ≤ edepths es
  | [] => by simp [vdepths]
  | (k, v) :: r => by have := vdepths_keys r; simp only [List.map_cons, vdepths, edepths]; omega

theorem vdepths_vals : (es : List (Val × Val)) → vdepths (es.map (·.2)) ≤ edepths es
  | [] => by simp [vdepths]
  | (k, v) :: r => by have := vdepths_vals r; simp only [List.map_cons, vdepths, edepths]; omega

theorem mapType_depth {t k v : Ty} {lo hi : Int} (h : t.mapType? = some (lo, hi, k, v)) : k.depth ≤ t.depth ∧ v.depth ≤ t.depth := by
  cases t with
  | mapT => simp only [Ty.mapType?, Option.some.injEq, Prod.mk.injEq] at h; obtain ⟨_, _, rfl, rfl⟩ := h; simp [Ty.depth]
  | sizedMap o k' v' lo hi =>
    simp only [Ty.mapType?, Option.some.injEq, Prod.mk.injEq] at h; obtain ⟨_, _, rfl, rfl⟩ := h; simp only [Ty.depth]; omega
  | exactD o w =>
    cases w with
    | map es =>
      simp only [Ty.mapType?, Option.some.injEq, Prod.mk.injEq] at h
      obtain ⟨_, _, rfl, rfl⟩ := h
      have := vdepths_keys es
      have := vdepths_vals es
      split <;> simp only [Ty.depth, vdepth] <;> omega
    | _ => simp [Ty.mapType?] at h
  | struct o add fs =>
    simp only [Ty.mapType?, Option.some.injEq, Prod.mk.injEq] at h
    obtain ⟨_, _, rfl, rfl⟩ := h
    constructor
    · split
      · simp [Ty.depth]
      · rename_i f _ _
        have := (typeOf_ok (.part (.part o 0) 0) f.1).depth
        have := key_depth (show f ∈ [f] by simp)
        simp only [Ty.depth]; omega
      · have : depths (fieldKeys (.part o 0) fs) ≤ depthFields fs := depths_le fun t ht => by
          obtain ⟨k, f, hf, rfl⟩ := fieldKeys_mem ht
          have := (typeOf_ok (.part (.part o 0) k) f.1).depth
          have := key_depth hf
          omega
        simp only [Ty.depth]; omega
    · split
      · simp [Ty.depth]
      · rename_i f _ _
        have := depth_le_depthFields (show f ∈ [f] by simp)
        simp only [Ty.depth]; omega
      · have : depths (fs.map (·.2.2)) ≤ depthFields fs := depths_le fun t ht => by
          simp only [List.mem_map] at ht
          obtain ⟨f, hf, rfl⟩ := ht
          exact depth_le_depthFields hf
        simp only [Ty.depth]; omega
  | _ => simp [Ty.mapType?] at h

theorem operands_depth {t : Ty} {ts : List Ty} {ne : Bool} (h : t.operands? = some (ts, ne)) : ∀ c ∈ ts, c.depth < t.depth := by
  cases t with
  | allOf o us | anyOf o us | oneOf o us =>
    simp only [Ty.operands?, Option.some.injEq, Prod.mk.injEq] at h
    obtain ⟨rfl, _⟩ := h
    intro c hc
    have := depth_le_depths hc
    simp only [Ty.depth]; omega
  | allOfVal o vs =>
    simp only [Ty.operands?, Option.some.injEq, Prod.mk.injEq] at h
    obtain ⟨rfl, _⟩ := h
    intro c hc
    have := typesOf_depth hc
    simp only [Ty.depth]; omega
  | _ => simp [Ty.operands?] at h

section
variable {E : Env} {n : Nat} {f f' : G → Ty → Ty → Check}

theorem checkTo_same {a b : Ty} (h : ∀ c d, c.depth + d.depth < a.depth + b.depth → ∀ g, Same (f g c d) (f' g c d)) (g : G) :
    Same (checkTo f g a b) (checkTo f' g a b) := by
  unfold checkTo
  split
  · exact .some
  · rename_i ts ne hts
    exact (allG_same (fun x hx g => h a x (by have := operands_depth hts x hx; omega) g) _).map _

theorem markFirst_same {p p' : G → Ty → Check} {m : Bool} {bs : List (Ty × Bool)} (h : ∀ b ∈ bs, ∀ g, Same (p g b.1) (p' g b.1)) : ∀ g,
    markFirst p m g bs = markFirst p' m g bs ∧ markFirst p m g bs ≠ none := by
  induction bs with
  | nil => intro g; simp [markFirst]
  | cons b bs ih =>
    obtain ⟨t, b⟩ := b
    have ih' := ih fun y hy => h y (by simp [hy])
    intro g
    rw [markFirst, markFirst]
    split
    · obtain ⟨⟨r, g'⟩, h1, h2⟩ := (h (t, b) (by simp) g).cases
      simp only at h1 h2
      rw [h1, h2]
      cases r
      · obtain ⟨h3, h4⟩ := ih' g'
        simp only [h3]
        exact ⟨trivial, by rw [h3] at h4; simpa using h4⟩
      · simp
    · obtain ⟨h3, h4⟩ := ih' g
      simp only [h3]
      exact ⟨trivial, by rw [h3] at h4; simpa using h4⟩

theorem markFirst_sub {p : G → Ty → Check} {m : Bool} {bs : List (Ty × Bool)} : ∀ {g g' : G} {bs' : List (Ty × Bool)},
    markFirst p m g bs = some (some bs', g') → bs'.map (·.1) = bs.map (·.1) := by
  induction bs with
  | nil => intro g g' bs' h; simp [markFirst] at h
  | cons b bs ih =>
    obtain ⟨t, b⟩ := b
    intro g g' bs' h
    rw [markFirst] at h
    have tail : ∀ g, (markFirst p m g bs).map (fun x => (x.1.map ((t, b) :: ·), x.2)) = some (some bs', g') →
        bs'.map (·.1) = t :: bs.map (·.1) := by
      intro g h
      simp only [Option.map_eq_some_iff, Prod.mk.injEq] at h
      obtain ⟨⟨x, g''⟩, h1, h2, h3⟩ := h
      simp only [Option.map_eq_some_iff] at h2
      obtain ⟨bs'', h2, rfl⟩ := h2
      subst h2
      simp [ih h1]
    split at h
    · split at h
      · simp at h
      · simp only [Option.some.injEq, Prod.mk.injEq] at h; obtain ⟨rfl, _⟩ := h; simp
      · exact tail _ h
    · exact tail _ h

theorem lessLoop_same {as : List Ty} : ∀ {bs : List (Ty × Bool)}, (∀ a ∈ as, ∀ b ∈ bs.map (·.1), ∀ g, Same (f g a b) (f' g a b)) → ∀ g,
    lessLoop f g as bs = lessLoop f' g as bs ∧ lessLoop f g as bs ≠ none := by
  induction as with
  | nil => intro bs h g; simp [lessLoop]
  | cons a as ih =>
    intro bs h g
    have ha : ∀ b ∈ bs, ∀ g, Same (f g a b.1) (f' g a b.1) := fun b hb => h a (by simp) b.1 (List.mem_map.2 ⟨b, hb, rfl⟩)
    have ih' : ∀ {bs' : List (Ty × Bool)}, bs'.map (·.1) = bs.map (·.1) → ∀ g, _ := fun {bs'} hb => ih (bs := bs') fun x hx b hb' =>
      h x (by simp [hx]) b (by rwa [hb] at hb')
    rw [lessLoop, lessLoop]
    obtain ⟨h1, h2⟩ := markFirst_same (m := false) ha g
    simp only [← h1]
    obtain ⟨⟨r, g1⟩, hr⟩ := Option.ne_none_iff_exists'.1 h2
    rw [hr]
    cases r with
    | some bs' => exact ih' (markFirst_sub hr) g1
    | none =>
      obtain ⟨h3, h4⟩ := markFirst_same (m := true) ha g1
      simp only [← h3]
      obtain ⟨⟨r, g2⟩, hr⟩ := Option.ne_none_iff_exists'.1 h4
      rw [hr]
      cases r with
      | some bs' => exact ih' (markFirst_sub hr) g2
      | none => simp

theorem lessLoop_sub {as : List Ty} : ∀ {bs bs' : List (Ty × Bool)} {g g' : G}, lessLoop f g as bs = some (some bs', g') →
    bs'.map (·.1) = bs.map (·.1) := by
  induction as with
  | nil => intro bs bs' g g' h; simp only [lessLoop, Option.some.injEq, Prod.mk.injEq] at h; rw [h.1]
  | cons a as ih =>
    intro bs bs' g g' h
    rw [lessLoop] at h
    split at h
    · simp at h
    · rename_i h1; rw [ih h, markFirst_sub h1]
    · split at h
      · simp at h
      · rename_i h1; rw [ih h, markFirst_sub h1]
      · simp at h

theorem lessRestrictive_same {as bs : List Ty} (h : ∀ a ∈ as, ∀ b ∈ bs, (∀ g, Same (f g a b) (f' g a b)) ∧ ∀ g, Same (f g b a) (f' g b a)) (g : G) :
    Same (lessRestrictive f g as bs) (lessRestrictive f' g as bs) := by
  have hbs : (bs.map fun b => (b, false)).map (·.1) = bs := by simp [Function.comp_def]
  obtain ⟨h1, h2⟩ := lessLoop_same (f := f) (f' := f') (as := as) (bs := bs.map fun b => (b, false))
    (fun a ha b hb => (h a ha b (by rwa [hbs] at hb)).1) g
  unfold lessRestrictive
  rw [← h1]
  obtain ⟨⟨r, g1⟩, hr⟩ := Option.ne_none_iff_exists'.1 h2
  rw [hr]
  cases r with
  | none => exact .some
  | some bs' =>
    refine (anyG_same (fun x hx g => anyG_same (fun a ha g => (h a ha x ?_).2 g) g) _).map _
    simp only [List.mem_map, List.mem_filter] at hx
    obtain ⟨y, ⟨hy, _⟩, rfl⟩ := hx
    have := lessLoop_sub hr
    rw [hbs] at this
    rw [← this]
    exact List.mem_map.2 ⟨y, hy, rfl⟩

theorem structAsg_same {add : Bool} {us fs : List (Val × Bool × Ty)} (h : ∀ x ∈ fs, ∀ y ∈ us, ∀ g, Same (f g x.2.2 y.2.2) (f' g x.2.2 y.2.2)) : ∀ g oc,
    structAsg f add us g oc fs = structAsg f' add us g oc fs ∧ structAsg f add us g oc fs ≠ none := by
  induction fs with
  | nil => intro g oc; simp [structAsg]
  | cons x fs ih =>
    obtain ⟨k, rq, t⟩ := x
    have ih' := ih fun y hy => h y (by simp [hy])
    intro g oc
    rw [structAsg, structAsg]
    split
    · rename_i x rq' u hu
      have := List.mem_of_find?_eq_some hu
      split
      · simp
      · obtain ⟨⟨b, g'⟩, h1, h2⟩ := (h (k, rq, t) (by simp) _ this g).cases
        simp only at h1 h2
        rw [h1, h2]
        cases b
        · simp
        · exact ih' _ _
    · split
      · simp
      · exact ih' _ _

theorem elemAt_mem {ts : List Ty} {var : Bool} {i : Nat} {t : Ty} (h : elemAt ts var i = some t) : t ∈ ts := by
  unfold elemAt at h
  grind [List.mem_of_getElem?]

theorem if_same_ {p : Prop} [Decidable p] {r : Bool × G} {c d : Check} (h : Same c d) :
    Same (if p then some r else c) (if p then some r else d) := by
  split
  · exact .some
  · exact h

theorem if_same' {p : Prop} [Decidable p] {r : Bool × G} {c d : Check} (h : Same c d) :
    Same (if p then c else some r) (if p then d else some r) := by
  split
  · exact h
  · exact .some

theorem deepAsg_same {r r' : Ty → Ty → Bool} {ins ins' : G → Ty → Oid × Val → Check} {a b : Ty}
    (h : ∀ c d, c.depth + d.depth < a.depth + b.depth → ∀ g, Same (f g c d) (f' g c d))
    (hr : ∀ c d, c.depth < b.depth → d.depth < b.depth → 0 < a.depth → r c d = r' c d)
    (hi : 0 < b.depth → ∀ g pv, Same (ins g a pv) (ins' g a pv)) (g : G) :
    Same (deepAsg E r f ins g a b) (deepAsg E r' f' ins' g a b) := by
  have hc := checkTo_same h
  cases a with
  | exactD o v =>
    simp only [deepAsg]
    split
    · exact .some
    · exact hc g
  | sizedArr o e lo hi' =>
    have hr' : b.arrayType? E r = b.arrayType? E r' := arrayType_congr fun c d hc hd => hr c d hc hd (by simp [Ty.depth])
    simp only [deepAsg]
    split
    · exact .some
    · rw [← hr']
      split
      · rename_i e' he
        split
        · exact (h _ _ (by have := arrayType_depth he; simp only [Ty.depth]; omega) _).map _
        · exact .some
      · exact hc g
  | tuple o ts var =>
    have hts : ∀ t ∈ ts, ∀ u, u.depth ≤ b.depth → ∀ g, Same (f g t u) (f' g t u) := fun t ht u hu => h t u (by
      have := depth_le_depths ht; simp only [Ty.depth]; omega)
    simp only [deepAsg]
    split
    · exact .some
    · exact hi (by simp [Ty.depth]) _ _
    · rename_i us var'
      unfold tupleTuple
      refine if_same_ ?_
      · refine allG_same (fun i hi g => ?_) g
        split
        · rename_i t u ht hu
          exact hts t (elemAt_mem ht) u (by have := depth_le_depths (elemAt_mem hu); simp only [Ty.depth]; omega) g
        · exact .some
    · rename_i e lo hi'
      unfold tupleArray
      refine if_same' ?_
      exact allG_same (fun t ht g => hts t ht e (by simp [Ty.depth]) g) g
    · exact hc g
  | sizedMap o k v lo hi' =>
    simp only [deepAsg]
    split
    · rename_i hm
      have := mapType_depth hm
      split
      · exact andG_same (h _ _ (by simp only [Ty.depth]; omega) _) fun g => h _ _ (by simp only [Ty.depth]; omega) _
      · exact .some
    · exact hc g
  | struct o add fs =>
    simp only [deepAsg]
    split
    · rename_i add' us
      obtain ⟨h1, h2⟩ := structAsg_same (f := f) (f' := f') (add := add') (us := us) (fs := fs) (fun x hx y hy g => h _ _ (by
        have := depth_le_depthFields hx; have := depth_le_depthFields hy; simp only [Ty.depth]; omega) g) g 0
      rw [← h1]
      obtain ⟨⟨q, g1⟩, hq⟩ := Option.ne_none_iff_exists'.1 h2
      rw [hq]
      cases q <;> exact .some
    · exact hi (by simp [Ty.depth]) _ _
    · exact hc g
  | allOf o ts =>
    have hall : Same (match allG (fun g t => f g t b) g ts with
        | none => none
        | some (true, g) => some (true, g)
        | some (false, g) => checkTo f g (.allOf o ts) b) (match allG (fun g t => f' g t b) g ts with
        | none => none
        | some (true, g) => some (true, g)
        | some (false, g) => checkTo f' g (.allOf o ts) b) := by
      obtain ⟨⟨q, g1⟩, h1, h2⟩ := (allG_same (f := fun g t => f g t b) (f' := fun g t => f' g t b) (xs := ts)
        (fun t ht g => h t b (by have := depth_le_depths ht; simp only [Ty.depth]; omega) g) g).cases
      rw [h1, h2]
      cases q
      · exact hc g1
      · exact .some
    simp only [deepAsg]
    split
    · refine lessRestrictive_same (fun x hx y hy => ?_) g
      have := depth_le_depths hx; have := depth_le_depths hy
      constructor <;> exact fun g => h _ _ (by simp only [Ty.depth]; omega) g
    · refine lessRestrictive_same (fun x hx y hy => ?_) g
      have := depth_le_depths hx; have := typesOf_depth hy
      constructor <;> exact fun g => h _ _ (by simp only [Ty.depth]; omega) g
    · exact hall
  | allOfVal o vs =>
    simp only [deepAsg]
    split
    · exact .some
    · refine lessRestrictive_same (fun x hx y hy => ?_) g
      have := typesOf_depth hx; have := depth_le_depths hy
      constructor <;> exact fun g => h _ _ (by simp only [Ty.depth]; omega) g
    · exact allG_same (fun t ht g => h t b (by have := typesOf_depth ht; simp only [Ty.depth]; omega) g) g
  | anyOf o ts =>
    simp only [deepAsg]
    split
    · exact .some
    · obtain ⟨⟨q, g1⟩, h1, h2⟩ := (anyG_same (f := fun g t => f g t b) (f' := fun g t => f' g t b) (xs := ts)
        (fun t ht g => h t b (by have := depth_le_depths ht; simp only [Ty.depth]; omega) g) g).cases
      rw [h1, h2]
      cases q
      · exact hc g1
      · exact .some
  | oneOf o ts =>
    simp only [deepAsg]
    split
    · exact .some
    · obtain ⟨⟨q, g1⟩, h1, h2⟩ := (oneG_same (f := fun g t => f g t b) (f' := fun g t => f' g t b) (xs := ts)
        (fun t ht g => h t b (by have := depth_le_depths ht; simp only [Ty.depth]; omega) g) false g).cases
      rw [h1, h2]
      cases q
      · exact hc g1
      · exact .some
  | sens o t =>
    simp only [deepAsg]
    split
    · exact h _ _ (by simp only [Ty.depth]; omega) _
    · exact hc g
  | _ => exact .some

theorem leafAsg_same {r r' : Ty → Ty → Bool} {f f' : Ty → Ty → Option Bool} {a b : Ty}
    (h : ∀ c d, c.depth + d.depth < a.depth + b.depth → f c d = f' c d ∧ f c d ≠ none)
    (hr : ∀ c d, c.depth < a.depth → d.depth < b.depth → r c d = r' c d) :
    leafAsg E r f a b = leafAsg E r' f' a b ∧ leafAsg E r f a b ≠ none := by
  have hl : leafCase E r a b = leafCase E r' a b := by
    unfold leafCase
    split <;> first | rfl | (rw [hr _ _ (by simp [Ty.depth]) (by simp [Ty.depth])])
  unfold leafAsg
  split
  · rename_i t
    unfold notAsg
    split
    · exact h _ _ (by simp only [Ty.depth]; omega)
    · exact anyO_same fun u hu => h _ _ (by have := depth_le_depths hu; simp only [Ty.depth]; omega)
    · exact allO_same fun u hu => h _ _ (by have := depth_le_depths hu; simp only [Ty.depth]; omega)
    · exact oneO_same (fun u hu => h _ _ (by have := depth_le_depths hu; simp only [Ty.depth]; omega)) _
    · obtain ⟨h1, h2⟩ := h t b (by simp only [Ty.depth]; omega)
      rw [← h1]
      exact ⟨rfl, by simpa using h2⟩
  · rw [← hl]
    split
    · simp
    · split
      · simp
      · rename_i ts ne hts
        obtain ⟨h1, h2⟩ := allO_same (f := fun t => f a t) (f' := fun t => f' a t) (xs := ts) (fun t ht => h a t (by have := operands_depth hts t ht; omega))
        rw [← h1]
        exact ⟨rfl, by simpa using h2⟩

end

/-- With more fuel `Assignable` answers the same, and it does answer. -/
theorem asg_succ {E : Env} : ∀ (n : Nat) (g : G) (a b : Ty), a.depth + b.depth < n → Same (asg E (n + 1) g a b) (asg E n g a b)
  | 0, _, _, _, h => by omega
  | n + 1, g, a, b, h => by
    have ih : ∀ c d, c.depth + d.depth < a.depth + b.depth → ∀ g, Same (asg E (n + 1) g c d) (asg E n g c d) :=
      fun c d hc g => asg_succ n g c d (by omega)
    have key : ∀ g, Same (deepAsg E (tyEq (n + 1) []) (asg E (n + 1)) (inst E (n + 1)) g a b) (deepAsg E (tyEq n []) (asg E n) (inst E n) g a b) :=
      fun g => deepAsg_same ih (fun c d hc hd ha => tyEq_succ n [] c d (by omega) (by omega))
        (fun hb g pv => inst_succ n g a pv (by omega)) g
    rw [asg, asg]
    split
    · obtain ⟨h1, h2⟩ := leafAsg_same (E := E) (a := a) (b := b) (r := tyEq (n + 1) []) (r' := tyEq n [])
        (f := fun a b => (asg E (n + 1) none a b).map (·.1)) (f' := fun a b => (asg E n none a b).map (·.1))
        (fun c d hc => by obtain ⟨h1, h2⟩ := ih c d hc none; exact ⟨by rw [h1], by simpa using h2⟩)
        (fun c d hc hd => tyEq_succ n [] c d (by omega) (by omega))
      rw [← h1]
      exact ⟨rfl, by simpa using h2⟩
    · split
      · exact key g
      · split
        · exact .some
        · split
          · exact (key _).map _
          · simp only
            split
            · exact .some
            · exact (key _).map _

theorem asg_fuel {E : Env} {n : Nat} {g : G} {a b : Ty} (h : a.depth + b.depth < n) : ∀ k, Same (asg E (n + k) g a b) (asg E n g a b)
  | 0 => by
    refine ⟨rfl, ?_⟩
    cases n with
    | zero => omega
    | succ n => obtain ⟨h1, h2⟩ := asg_succ (E := E) (n + 1) g a b h; rw [h1] at h2; exact h2
  | k + 1 => by
    obtain ⟨h1, h2⟩ := asg_succ (E := E) (n + k) g a b (by omega)
    have h3 := asg_fuel (E := E) (g := g) h k
    rw [← Nat.add_assoc]
    exact ⟨h1.trans h3.1, h2⟩

/-- `Assignable` ends. -/
theorem asg_total {E : Env} {n : Nat} {g : G} {a b : Ty} (h : a.depth + b.depth < n) : ∃ r, asg E n g a b = some r :=
  Option.ne_none_iff_exists'.1 (asg_fuel h 0).2

/-- Any amount of fuel that is enough gives the answer. -/
theorem assignable_iff {E : Env} {n : Nat} {a b : Ty} (h : a.depth + b.depth < n) :
    assignable E a b = true ↔ ∃ g, asg E n none a b = some (true, g) := by
  have h1 := asg_fuel (E := E) (g := none) (n := a.depth + b.depth + 3) (a := a) (b := b) (by omega) n
  have h2 := asg_fuel (E := E) (g := none) h (a.depth + b.depth + 3)
  have h3 : asg E (a.depth + b.depth + 3) none a b = asg E n none a b := by rw [← h1.1, Nat.add_comm, h2.1]
  obtain ⟨⟨r, g⟩, hr⟩ := asg_total (E := E) (g := none) h
  rw [assignable, h3, hr]
  simp

end Verif.Types
