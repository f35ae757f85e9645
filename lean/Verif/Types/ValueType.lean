import Verif.Types.AssignFuel
import Verif.Types.AssignNil
import Verif.Types.Own
/-!
# Assignable from the type of a value is Instance of the value
-/
set_option autoImplicit false
set_option linter.unusedVariables false
set_option linter.unusedSimpArgs false
namespace Verif.Types.VT
open Verif.Value

mutual
/-- As far as operands go, the exact types are of the kind of value that they are made of: exact.go:12-13, array.go:260-262, map.go:1212-1214. -/
def Kind : Ty → Prop
  | .exact v => isScalar v = true
  | .exactD _ v => isDeepExact v = true
  | .allOf _ ts | .anyOf _ ts | .oneOf _ ts => Kinds ts
  | .not t => Kind t
  | _ => True
def Kinds : List Ty → Prop
  | [] => True
  | t :: ts => Kind t ∧ Kinds ts
end

theorem Kinds_iff {ts : List Ty} : Kinds ts ↔ ∀ t ∈ ts, Kind t := by
  induction ts with
  | nil => simp [Kinds]
  | cons t ts ih => simp [Kinds, ih]

theorem Kind_typeOf (o : Oid) (v : Val) : Kind (typeOf o v) := by
  cases v <;> simp [typeOf, Kind, isScalar, isDeepExact]

theorem Kind_typesOf (o : Oid) : (vs : List Val) → ∀ t ∈ typesOf o vs, Kind t
  | [] => by simp [typesOf]
  | v :: vs => by
    rw [typesOf]
    intro t ht
    rcases List.mem_cons.1 ht with rfl | ht
    · exact Kind_typeOf _ _
    · exact Kind_typesOf o vs t ht

theorem eq_deep_scalar {w v : Val} (hw : isDeepExact w = true) (hv : isScalar v = true ∨ v = .nil) : eq w v = false := by
  rcases hv with hv | rfl
  · cases w <;> simp [isDeepExact] at hw <;> cases v <;> simp [isScalar] at hv <;> simp [eq]
  · cases w <;> simp [isDeepExact] at hw <;> simp [eq]

theorem eq_scalar_deep {w v : Val} (hw : isScalar w = true) (hv : isScalar v = false) : eq w v = false := by
  cases w <;> simp [isScalar] at hw <;> cases v <;> simp [isScalar] at hv <;> simp [eq]

section
variable {E : Env} {n : Nat}

theorem allG_const {α : Type} {f : G → α → Check} {p : α → Bool} {g : G} : ∀ {ts : List α}, (∀ t ∈ ts, f g t = some (p t, g)) →
    allG f g ts = some (ts.all p, g)
  | [], _ => rfl
  | t :: ts, h => by
    rw [allG, h t List.mem_cons_self, List.all_cons]
    cases hh : p t with
    | false => rfl
    | true => simp only [Bool.true_and]; exact allG_const fun t ht => h t (List.mem_cons_of_mem _ ht)

theorem anyG_const {α : Type} {f : G → α → Check} {p : α → Bool} {g : G} : ∀ {ts : List α}, (∀ t ∈ ts, f g t = some (p t, g)) →
    anyG f g ts = some (ts.any p, g)
  | [], _ => rfl
  | t :: ts, h => by
    rw [anyG, h t List.mem_cons_self, List.any_cons]
    cases hh : p t with
    | true => rfl
    | false => simp only [Bool.false_or]; exact anyG_const fun t ht => h t (List.mem_cons_of_mem _ ht)

theorem oneG_const {α : Type} {f : G → α → Check} {p : α → Bool} {g : G} : ∀ {ts : List α} {b : Bool}, (∀ t ∈ ts, f g t = some (p t, g)) →
    oneG f b g ts = some ((ts.countP p) + b.toNat == 1, g)
  | [], b, _ => by cases b <;> rfl
  | t :: ts, b, h => by
    have ih : ∀ b, _ := fun b => oneG_const (ts := ts) (b := b) fun t ht => h t (List.mem_cons_of_mem _ ht)
    rw [oneG, h t List.mem_cons_self, List.countP_cons]
    cases hh : p t with
    | true =>
      simp only [if_true]
      cases b with
      | true =>
        have : ∀ k : Nat, (k + 1 + 1 == 1) = false := by intro k; simp
        simp [this]
      | false =>
        simp only [Bool.false_eq_true, if_false, ih, Bool.toNat_true, Bool.toNat_false, Nat.add_zero]
    | false =>
      simp only [Bool.false_eq_true, if_false, Nat.add_zero]
      exact ih b

theorem allO_const {α : Type} {f : α → Option Bool} {p : α → Bool} : ∀ {ts : List α}, (∀ t ∈ ts, f t = some (p t)) → allO f ts = some (ts.all p)
  | [], _ => rfl
  | t :: ts, h => by
    rw [allO, h t List.mem_cons_self, List.all_cons]
    cases hh : p t with
    | false => rfl
    | true => simp only [Bool.true_and]; exact allO_const fun t ht => h t (List.mem_cons_of_mem _ ht)

theorem has_allOf_all {o : Oid} {ts : List Ty} {v : Val} : has E (.allOf o ts) v = ts.all fun t => has E t v := by
  rw [Bool.eq_iff_iff, has_allOf, List.all_eq_true]
theorem has_anyOf_any {o : Oid} {ts : List Ty} {v : Val} : has E (.anyOf o ts) v = ts.any fun t => has E t v := by
  rw [Bool.eq_iff_iff, has_anyOf, List.any_eq_true]
theorem has_oneOf_count {o : Oid} {ts : List Ty} {v : Val} : has E (.oneOf o ts) v = ((ts.countP fun t => has E t v) == 1) := by
  rw [has, hasP]
  congr 1
  induction ts with
  | nil => rfl
  | cons t ts ih => rw [hasCount, List.countP_cons, ih, Nat.add_comm]; rfl

/-! ## Types without parts -/

/-- A type without a `Deep` method that is no negation -/
def Flat (t : Ty) : Prop := t.deep? = none ∧ ∀ u, t ≠ .not u

theorem typeOf_operands (o : Oid) (v : Val) : (typeOf o v).operands? = none := by cases v <;> rfl

theorem leafAsg_value {eqT : Ty → Ty → Bool} {rec : Ty → Ty → Option Bool} {t : Ty} (hf : Flat t) (hk : Kind t) (o : Oid) (v : Val) :
    leafAsg E eqT rec t (typeOf o v) = some (has E t v) := by
  obtain ⟨hd, hn⟩ := hf
  cases t <;> simp only [Ty.deep?, reduceCtorEq] at hd
  case not u => exact absurd rfl (hn u)
  case exact w =>
    have hk : isScalar w = true := hk
    cases hv : isScalar v with
    | false =>
      have h := eq_scalar_deep hk hv
      cases v <;> simp [isScalar] at hv <;> simp only [leafAsg, typeOf, leafCase, Ty.operands?, has, hasP, h]
    | true =>
      have ht : typeOf o v = .exact v := by cases v <;> simp [isScalar] at hv <;> rfl
      rw [ht]
      simp only [leafAsg, leafCase, Ty.operands?, has, hasP]
      cases eq w v <;> rfl
  all_goals (cases v <;> simp only [leafAsg, typeOf, leafCase, Ty.operands?, has, hasP])

theorem allO_types {f : Ty → Option Bool} {p : Val → Bool} {o : Oid} : ∀ {vs : List Val}, (∀ v ∈ vs, ∀ k, f (typeOf (.part o k) v) = some (p v)) →
    allO f (typesOf o vs) = some (vs.all p)
  | [], _ => rfl
  | v :: vs, h => by
    rw [typesOf, allO, h v List.mem_cons_self, List.all_cons]
    cases hh : p v with
    | false => rfl
    | true => simp only [Bool.true_and]; exact allO_types fun t ht => h t (List.mem_cons_of_mem _ ht)

theorem allG_types {f : G → Ty → Check} {p : Val → Bool} {g : G} {o : Oid} : ∀ {vs : List Val},
    (∀ v ∈ vs, ∀ k, f g (typeOf (.part o k) v) = some (p v, g)) → allG f g (typesOf o vs) = some (vs.all p, g)
  | [], _ => rfl
  | v :: vs, h => by
    rw [typesOf, allG, h v List.mem_cons_self, List.all_cons]
    cases hh : p v with
    | false => rfl
    | true => simp only [Bool.true_and]; exact allG_types fun t ht => h t (List.mem_cons_of_mem _ ht)

/-- As `leafAsg_value`, for the type of the members of a collection; `float` has no reverse check. -/
theorem leafAsg_values {eqT : Ty → Ty → Bool} {rec : Ty → Ty → Option Bool} {t : Ty} (hf : Flat t) (hfl : t ≠ .floatT) {o : Oid} {vs : List Val}
    (hr : ∀ v ∈ vs, ∀ k, rec t (typeOf (.part o k) v) = some (has E t v)) :
    leafAsg E eqT rec t (.allOfVal o vs) = some (vs.all fun v => has E t v) := by
  obtain ⟨hd, hn⟩ := hf
  have hm : ∀ c : Option Bool, (c.map fun r => r && !(false && (typesOf o vs).isEmpty)) = c := by intro c; cases c <;> simp
  have ha := allO_types (f := fun u => rec t u) (p := fun v => has E t v) hr
  cases t <;> simp only [Ty.deep?, reduceCtorEq] at hd
  case not u => exact absurd rfl (hn u)
  case floatT => exact absurd rfl hfl
  case any => simp [leafAsg, leafCase, has, hasP]
  all_goals simp only [leafAsg, leafCase, Ty.operands?, hm, ha]

/-! ## The type of a value that is no collection -/

theorem asg_leaf {a b : Ty} {g : G} (ha : a.deep? = none) :
    asg E (n + 1) g a b = (leafAsg E (tyEq n []) (fun a b => (asg E n none a b).map (·.1)) a b).map fun r => (r, g) := by
  rw [asg, ha]

theorem asg_deep_leaf {a b : Ty} {g : G} {o : Oid} (ha : a.deep? = some o) (hb : b.deep? = none) :
    asg E (n + 1) g a b = deepAsg E (tyEq n []) (asg E n) (inst E n) g a b := by
  rw [asg, ha, hb]

theorem asg_scalar {v : Val} (hv : isScalar v = true ∨ v = .nil) (o : Oid) : ∀ (n : Nat) (t : Ty) (g : G), t.depth < n → Kind t →
    asg E n g t (typeOf o v) = some (has E t v, g)
  | 0, _, _, h, _ => absurd h (Nat.not_lt_zero _)
  | n + 1, t, g, h, hk => by
    have hbd : (typeOf o v).deep? = none := by
      rcases hv with hv | rfl
      · cases v <;> simp [isScalar] at hv <;> rfl
      · rfl
    have hct : ∀ {a : Ty} {g : G}, checkTo (asg E n) g a (typeOf o v) = some (false, g) := fun {a g} => by
      rw [checkTo, typeOf_operands]
    have kids : ∀ {ts : List Ty}, depths ts + 1 < n + 1 → Kinds ts → ∀ t ∈ ts, asg E n g t (typeOf o v) = some (has E t v, g) :=
      fun hd ho t ht => asg_scalar hv o n t g (by have := depth_mem ht; omega) (Kinds_iff.1 ho t ht)
    by_cases hf : Flat t
    · rw [asg, hf.1]
      simp only [leafAsg_value hf hk, Option.map_some]
    · cases t <;> simp only [Flat, Ty.deep?, ne_eq, reduceCtorEq, not_false_eq_true, implies_true, and_self, not_true_eq_false, true_and] at hf
      case not u =>
        have := asg_scalar hv o n u none (by rw [Ty.depth] at h; omega) hk
        rw [asg]
        have hna : notAsg (fun a b => (asg E n none a b).map (·.1)) u (typeOf o v) = some (!has E u v) := by
          have : ((asg E n none u (typeOf o v)).map (·.1)).map (!·) = some (!has E u v) := by rw [this]; rfl
          rw [← this]
          rcases hv with hv | rfl
          · cases v <;> simp [isScalar] at hv <;> rfl
          · rfl
        simp only [Ty.deep?, leafAsg, hna, Option.map_some, has_not]
      case allOf o' ts =>
        rw [asg_deep_leaf rfl hbd]
        have hb : deepAsg E (tyEq n []) (asg E n) (inst E n) g (.allOf o' ts) (typeOf o v) = some (has E (.allOf o' ts) v, g) := by
          have : deepAsg E (tyEq n []) (asg E n) (inst E n) g (.allOf o' ts) (typeOf o v) =
              match allG (fun g t => asg E n g t (typeOf o v)) g ts with
              | none => none
              | some (true, g) => some (true, g)
              | some (false, g) => checkTo (asg E n) g (.allOf o' ts) (typeOf o v) := by
            rcases hv with hv | rfl
            · cases v <;> simp [isScalar] at hv <;> rfl
            · rfl
          rw [this, allG_const (p := fun t => has E t v) (kids h hk), has_allOf_all]
          cases ts.all fun t => has E t v
          · exact hct
          · rfl
        exact hb
      case allOfVal o' vs =>
        rw [asg_deep_leaf rfl hbd]
        have hb : deepAsg E (tyEq n []) (asg E n) (inst E n) g (.allOfVal o' vs) (typeOf o v) = some (has E (.allOfVal o' vs) v, g) := by
          have : deepAsg E (tyEq n []) (asg E n) (inst E n) g (.allOfVal o' vs) (typeOf o v) =
              allG (fun g t => asg E n g t (typeOf o v)) g (typesOf o' vs) := by
            rcases hv with hv | rfl
            · cases v <;> simp [isScalar] at hv <;> rfl
            · rfl
          rw [this, has_allOfVal]
          refine allG_const fun t ht => asg_scalar hv o n t g ?_ (Kind_typesOf _ _ t ht)
          have := typesOf_depth ht
          rw [Ty.depth] at h
          omega
        exact hb
      case anyOf o' ts =>
        rw [asg_deep_leaf rfl hbd]
        simp only [deepAsg, anyG_const (p := fun t => has E t v) (f := fun g t => asg E n g t (typeOf o v)) (kids h hk), has_anyOf_any]
        cases ts with
        | nil =>
          rcases hv with hv | rfl
          · cases v <;> simp [isScalar] at hv <;> rfl
          · rfl
        | cons t ts =>
          simp only [List.isEmpty_cons, Bool.false_eq_true, if_false]
          cases (t :: ts).any fun t => has E t v
          · exact hct
          · rfl
      case oneOf o' ts =>
        rw [asg_deep_leaf rfl hbd]
        simp only [deepAsg, oneG_const (p := fun t => has E t v) (f := fun g t => asg E n g t (typeOf o v)) (kids h hk), has_oneOf_count]
        cases ts with
        | nil =>
          rcases hv with hv | rfl
          · cases v <;> simp [isScalar] at hv <;> rfl
          · rfl
        | cons t ts =>
          simp only [List.isEmpty_cons, Bool.false_eq_true, if_false, Bool.toNat_false, Nat.add_zero]
          cases (t :: ts).countP (fun t => has E t v) == 1
          · exact hct
          · rfl
      case exactD o' w =>
        have := eq_deep_scalar (v := v) hk hv
        rw [asg_deep_leaf rfl hbd]
        simp only [has, hasP, this]
        rcases hv with hv | rfl
        · cases v <;> simp [isScalar] at hv <;> rfl
        · rfl
      case tuple o' ts var =>
        rw [asg_deep_leaf rfl hbd]
        rcases hv with hv | rfl
        · cases var <;> cases v <;> simp [isScalar] at hv <;> rfl
        · cases var <;> rfl
      all_goals
        rw [asg_deep_leaf rfl hbd]
        rcases hv with hv | rfl
        · cases v <;> simp [isScalar] at hv <;> rfl
        · rfl

theorem assignable_scalar {t : Ty} (hk : Kind t) (ha : t.Acyc) {v : Val} (hv : isScalar v = true ∨ v = .nil) (o : Oid) :
    assignable E t (typeOf o v) = instanceOf E t v := by
  unfold assignable
  rw [asg_scalar hv o _ _ _ (by omega) hk, instanceOf_has ha]

/-! ## The type of a collection -/

/-- A type without parts, and not `float` -/
def Plain (t : Ty) : Prop := Flat t ∧ Kind t ∧ t ≠ .floatT

/-- The types for which the claim is shown when the value is a collection -/
def Elem : Ty → Prop
  | .exactD _ v => isDeepExact v = true
  | .sizedArr _ e _ _ => Elem e
  | .tuple _ ts _ => ∀ t ∈ ts, t.deepInst? = none
  | .sizedMap _ k v _ _ => Plain k ∧ Plain v
  | .struct _ _ fs => ∀ f ∈ fs, f.2.2.deepInst? = none
  | .anyOf _ ts => ∀ t ∈ ts, Plain t
  | t => Plain t

mutual
/-- No array, and no map in an array, is empty. -/
def Full : Val → Prop
  | .arr vs => vs ≠ [] ∧ Fulls vs
  | .map es => es ≠ []
  | _ => True
def Fulls : List Val → Prop
  | [] => True
  | v :: vs => Full v ∧ Fulls vs
end

theorem Fulls_iff {vs : List Val} : Fulls vs ↔ ∀ v ∈ vs, Full v := by
  induction vs with
  | nil => simp [Fulls]
  | cons t ts ih => simp [Fulls, ih]

theorem asg_plain {t : Ty} (h : Plain t) (g : G) (o : Oid) (v : Val) : asg E (n + 1) g t (typeOf o v) = some (has E t v, g) := by
  rw [asg_leaf h.1.1, leafAsg_value h.1 h.2.1]
  rfl

theorem asg_plains {t : Ty} (h : Plain t) (g : G) (o : Oid) (vs : List Val) :
    asg E (n + 2) g t (.allOfVal o vs) = some (vs.all fun v => has E t v, g) := by
  rw [asg_leaf h.1.1, leafAsg_values h.1 h.2.2 fun v _ k => by rw [asg_plain h]; rfl]
  rfl

/-- The guard does not know the two types. -/
def Unseen (g : G) (t : Ty) (o : Oid) : Prop :=
  ∀ s, g = some s → s.seenInA = false ∧ s.seenInB = false ∧ (∀ x, t.deep? = some x → s.aSeen.any (Obj.same E (.ty x)) = false) ∧
    s.bSeen.any (Obj.same E (.ty o)) = false ∧ ∀ q, Obj.val q ∉ s.bSeen

/-- Two types that the guard does not know: the answer is that of the `DeepAssignable` method. -/
theorem asg_unseen {a b : Ty} {g : G} {o o' : Oid} (ha : a.deep? = some o) (hb : b.deep? = some o') (hne : o ≠ o') (hu : Unseen (E := E) g a o') {r : Bool}
    (h : ∀ s, (∃ as bs, s = { aSeen := .ty o :: as, bSeen := .ty o' :: bs, seenInA := false, seenInB := false } ∧
      (g = none → as = [] ∧ bs = []) ∧ ∀ q, Obj.val q ∉ bs) → ∃ g', deepAsg E (tyEq n []) (asg E n) (inst E n) (some s) a b = some (r, g')) :
    asg E (n + 1) g a b = some (r, g) := by
  rw [asg, ha, hb]
  simp only [hne, if_false]
  cases g with
  | none =>
    obtain ⟨g', e⟩ := h _ ⟨[], [], rfl, fun _ => ⟨rfl, rfl⟩, by simp⟩
    simp only [e, Option.map_some]
  | some s =>
    obtain ⟨h1, h2, h3, h4, h5⟩ := hu s rfl
    have h3 := h3 o ha
    have e1 : (s.append E (.ty o) (.ty o')).1 = s := by
      cases s
      simp only [Guard.append] at *
      simp only [h1, h2, h3, h4, Bool.or_self]
    have e2 : (s.append E (.ty o) (.ty o')).2 = { aSeen := .ty o :: s.aSeen, bSeen := .ty o' :: s.bSeen, seenInA := false, seenInB := false } := by
      simp only [Guard.append, h1, h2, h3, h4, Bool.or_self, Bool.false_eq_true, if_false]
    obtain ⟨g', e⟩ := h _ ⟨s.aSeen, s.bSeen, rfl, (fun h => by cases h), h5⟩
    simp only [e1, e2, Guard.hit, Bool.and_false, Bool.false_eq_true, if_false, e, Option.map_some]

theorem checkTo_none {rec : G → Ty → Ty → Check} {g : G} {a b : Ty} (h : b.operands? = none) : checkTo rec g a b = some (false, g) := by
  rw [checkTo, h]

/-- An instance check of a type whose parts have none -/
theorem inst_flat {t : Ty} {o : Oid} (ho : t.deepInst? = some o) (hk : ∀ c ∈ kids t, c.deepInst? = none) (ha : t.Acyc) (hd : t.depth < n + 1) {s : Guard}
    (hs : s.seenInB = false ∧ ∀ q, Obj.val q ∉ s.bSeen) (p : Oid) (v : Val) :
    ∃ g', inst E (n + 1) (some s) t (p, v) = some (has E t v, g') := by
  have K : ∀ c ∈ kids t, ∀ (q : Oid) (w : Val) (g : G), inst E n g c (q, w) = some (has E c w, g) := by
    intro c hc q w g
    have hs := kids_spec ho ha hc
    cases n with
    | zero => omega
    | succ n =>
      rw [inst, hk c hc]
      dsimp only
      rw [leafInst_has (hk c hc) w]
      · rfl
      · intro u p v hu
        have := leaf_sub hu
        obtain ⟨g', e, _⟩ := inst_has (E := E) n u none p v (by omega) (this.2 hs.2.1) (.none u)
        rw [e]; rfl
  have R : ∀ g, ∃ g', deepInst (inst E n) g p v t = some (has E t v, g') := fun g => by
    obtain ⟨g', e, _⟩ := deepInst_run (E := E) (rec := inst E n) (J := fun _ => True) (g := g) ho p v
      (fun c hc q w _ g' _ => ⟨g', K c hc q w g', trivial⟩) (fun c hc q w => ⟨_, K c hc q w none⟩) trivial
    exact ⟨g', e⟩
  rw [inst, ho]
  dsimp only
  cases isDeepVal v with
  | false => exact R _
  | true =>
    have hb : s.bSeen.any (Obj.same E (.val p)) = false := by
      rw [List.any_eq_false]
      intro x hx
      cases x with
      | ty o => simp [Obj.same]
      | val q => exact absurd hx (hs.2 q)
    have : (s.append E (.ty o) (.val p)).2.hit E = false := by simp [Guard.append, Guard.hit, hs.1, hb]
    simp only [if_true, this, Bool.false_eq_true, if_false]
    obtain ⟨g', e⟩ := R (some (s.append E (.ty o) (.val p)).2)
    exact ⟨_, by rw [e]; rfl⟩

theorem Elem.kind {t : Ty} (h : Elem t) : Kind t := by
  cases t <;> first | trivial | exact h | exact h.2.1 | skip
  exact Kinds_iff.2 fun t ht => (h t ht).2.1

theorem Elem.plain {t : Ty} (h : Elem t) (hd : t.deep? = none) : Plain t := by
  cases t <;> simp only [Ty.deep?, reduceCtorEq] at hd <;> exact h

theorem Elem.id {t : Ty} {o : Oid} (h : Elem t) (hd : t.deep? = some o) : t.deepInst? = some o := by
  cases t <;> simp only [Ty.deep?, reduceCtorEq] at hd <;> first | exact hd | exact absurd h.1.1 (by simp [Ty.deep?])

theorem typeOf_deep {v : Val} (o : Oid) (hv : ¬ (isScalar v = true ∨ v = .nil)) : (typeOf o v).deep? = some o := by
  cases v <;> simp [isScalar] at hv <;> rfl

theorem eq_deep_sens {w v : Val} (hw : isDeepExact w = true) : eq w (.sens v) = false := by
  cases w <;> simp [isDeepExact] at hw <;> simp [eq]

theorem any_all {ts : List Ty} {vs : List Val} : ((ts.any fun t => vs.all fun v => has E t v) || vs.all fun v => ts.any fun t => has E t v) =
    vs.all fun v => ts.any fun t => has E t v := by
  cases h : ts.any fun t => vs.all fun v => has E t v with
  | false => rfl
  | true =>
    rw [Bool.true_or, eq_comm, List.all_eq_true]
    intro v hv
    obtain ⟨t, ht, hh⟩ := List.any_eq_true.1 h
    exact List.any_eq_true.2 ⟨t, ht, List.all_eq_true.1 hh v hv⟩

theorem up {x o : Oid} {k : Nat} (h : Below x (.part o k)) : Below x o := by
  exact h.trans (.part k (.refl o))

theorem typeOf_depth (o : Oid) (v : Val) : (typeOf o v).depth ≤ vdepth v + 1 := (typeOf_ok o v).depth

theorem vdepth_mem {v : Val} : ∀ {vs : List Val}, v ∈ vs → vdepth v ≤ vdepths vs
  | w :: vs, h => by
    rw [vdepths]
    rcases List.mem_cons.1 h with rfl | h
    · exact Nat.le_max_left _ _
    · exact Nat.le_trans (vdepth_mem h) (Nat.le_max_right _ _)

theorem all_entries {es : List (Val × Val)} {k w : Ty} : (es.all fun e => has E k e.1 && has E w e.2) =
    ((es.map (·.1)).all (fun v => has E k v) && (es.map (·.2)).all fun v => has E w v) := by
  induction es with
  | nil => rfl
  | cons e es ih =>
    rw [List.all_cons, List.map_cons, List.map_cons, List.all_cons, List.all_cons, ih]
    cases has E k e.1 <;> cases has E w e.2 <;> simp

theorem asg_collection : ∀ (n : Nat),
    (∀ (t : Ty) (v : Val) (o : Oid) (g : G), t.depth + (typeOf o v).depth < n → Elem t → t.Acyc → Full v → (∀ x, t.occ x → ¬ Below x o) →
      Unseen (E := E) g t o → asg E n g t (typeOf o v) = some (has E t v, g)) ∧
    (∀ (t : Ty) (vs : List Val) (o : Oid), t.depth + vdepths vs + 2 < n → Elem t → t.Acyc → Fulls vs → vs ≠ [] → (∀ x, t.occ x → ¬ Below x o) →
      asg E n none t (.allOfVal o vs) = some (vs.all fun v => has E t v, none)) := by
  intro n
  induction n with
  | zero => exact ⟨fun _ _ _ _ h => absurd h (Nat.not_lt_zero _), fun _ _ _ h => absurd h (Nat.not_lt_zero _)⟩
  | succ n ih =>
    obtain ⟨A, B⟩ := ih
    constructor
    · intro t v o g hd he hac hf hb hu
      by_cases hv : isScalar v = true ∨ v = .nil
      · exact asg_scalar hv o _ _ _ (by omega) he.kind
      have hbd := typeOf_deep o hv
      cases htd : t.deep? with
      | none => exact asg_plain (he.plain htd) g o v
      | some x =>
        have hoc := occ_id (he.id htd)
        refine asg_unseen htd hbd (fun h => hb x hoc (h ▸ .refl _)) hu fun s hs => ?_
        obtain ⟨as, bs, rfl, _, hbs⟩ := hs
        have hct : ∀ {a : Ty} {g : G}, checkTo (asg E n) g a (typeOf o v) = some (false, g) := fun {a g} => by
          rw [checkTo, typeOf_operands]
        have hin : ∀ (w : Val), t.depth < n → (∀ c ∈ kids t, c.deepInst? = none) → ∃ g', inst E n
            (some { aSeen := .ty x :: as, bSeen := .ty o :: bs, seenInA := false, seenInB := false }) t (o, w) = some (has E t w, g') := by
          intro w hdw hk
          cases n with
          | zero => omega
          | succ n => exact inst_flat (he.id htd) hk hac hdw ⟨rfl, by simpa using hbs⟩ o w
        have hdep : 0 < (typeOf o v).depth := by
          cases v <;> simp [isScalar] at hv <;> simp [typeOf, Ty.depth]
        cases t <;> simp only [Ty.deep?, reduceCtorEq] at htd
        case exactD o' w =>
          have he : isDeepExact w = true := he
          cases v <;> simp [isScalar] at hv
          case sens u => exact ⟨_, by simp only [deepAsg, typeOf, has, hasP, eq_deep_sens he]; exact checkTo_none rfl⟩
          all_goals exact ⟨_, by simp only [deepAsg, typeOf, has, hasP]; rfl⟩
        case sizedArr o' e lo hi =>
          have hbe : ∀ x, e.occ x → ¬ Below x (.part o 0) := fun x hx h => hb x (.inr hx) (up h)
          cases v <;> simp [isScalar] at hv
          case arr vs =>
            obtain ⟨hne, hfs⟩ := hf
            have hfs := Fulls_iff.1 hfs
            simp only [typeOf, Ty.depth, vdepth] at hd
            have fin : ∀ e' g', asg E n none e e' = some (vs.all fun v => has E e v, g') → ∀ (g : G), ∃ g' : G,
                (if lo ≤ len vs ∧ len vs ≤ hi then (asg E n none e e').map fun r => (r.1, g) else some (false, g)) =
                  some (has E (.sizedArr o' e lo hi) (.arr vs), g') := by
              intro e' g' e1 g
              simp only [has, hasP]
              by_cases hl : lo ≤ len vs ∧ len vs ≤ hi
              · rw [if_pos hl]
                refine ⟨g, ?_⟩
                rw [e1]
                simp only [hl.1, hl.2, decide_true, Bool.true_and, Option.map_some]
                rfl
              · rw [if_neg hl]
                have : (decide (lo ≤ len vs) && decide (len vs ≤ hi)) = false := by
                  rw [← Bool.not_eq_true, Bool.and_eq_true, decide_eq_true_eq, decide_eq_true_eq]; exact hl
                exact ⟨_, by rw [this, Bool.false_and]⟩
            cases vs with
            | nil => exact absurd rfl hne
            | cons w ws =>
              cases ws with
              | nil =>
                refine fin (typeOf (.part o 0) w) none ?_ _
                rw [A e w (.part o 0) none ?_ he hac.2 (hfs w (by simp)) hbe (fun s hs => by cases hs)]
                · simp
                · have := typeOf_depth (.part o 0) w
                  simp only [vdepths] at hd
                  omega
              | cons w' ws =>
                exact fin (.allOfVal (.part o 0) (w :: w' :: ws)) none (B e _ (.part o 0) (by omega) he hac.2 (Fulls_iff.2 hfs) (by simp) hbe) _
          all_goals exact ⟨_, by simp only [deepAsg, typeOf, Ty.arrayType?, has, hasP]; exact checkTo_none rfl⟩
        case tuple o' ts var =>
          cases v <;> simp [isScalar] at hv
          case arr vs =>
            have := hin (.arr vs) (by omega) he
            simpa only [deepAsg, typeOf] using this
          all_goals exact ⟨_, by cases var <;> simp only [deepAsg, typeOf, has, hasP] <;> exact checkTo_none rfl⟩
        case sizedMap o' k w lo hi =>
          cases v <;> simp [isScalar] at hv
          case map es =>
            have hf : es ≠ [] := hf
            have hemp : es.isEmpty = false := by cases es with | nil => exact absurd rfl hf | cons _ _ => rfl
            simp only [deepAsg, typeOf, Ty.mapType?, hemp, Bool.false_eq_true, if_false, has, hasP]
            simp only [typeOf, Ty.depth, vdepth] at hd
            obtain ⟨m, rfl⟩ : ∃ m, n = m + 2 := ⟨n - 2, by omega⟩
            rw [asg_plains he.1]
            by_cases hl : lo ≤ len es ∧ len es ≤ hi
            · rw [if_pos hl]
              refine ⟨some { aSeen := .ty o' :: as, bSeen := .ty o :: bs, seenInA := false, seenInB := false }, ?_⟩
              have e3 : (es.all fun e => hasP E (fun o vs v => (typesOf o vs).all fun t => has0 E t v) k e.1 &&
                  hasP E (fun o vs v => (typesOf o vs).all fun t => has0 E t v) w e.2) = es.all fun e => has E k e.1 && has E w e.2 := rfl
              rw [e3, all_entries]
              simp only [hl.1, hl.2, decide_true, Bool.true_and]
              cases htd
              cases h1 : (es.map (·.1)).all fun v => has E k v with
              | false => simp [andG]
              | true => simp only [andG, Bool.true_and]; exact asg_plains he.2 _ _ _
            · rw [if_neg hl]
              have : (decide (lo ≤ len es) && decide (len es ≤ hi)) = false := by
                rw [← Bool.not_eq_true, Bool.and_eq_true, decide_eq_true_eq, decide_eq_true_eq]; exact hl
              exact ⟨_, by rw [this, Bool.false_and]⟩
          all_goals exact ⟨_, by simp only [deepAsg, typeOf, Ty.mapType?, has, hasP]; exact checkTo_none rfl⟩
        case struct o' add fs =>
          cases v <;> simp [isScalar] at hv
          case map es =>
            have := hin (.map es) (by omega) (by
              intro c hc
              obtain ⟨f, hf, rfl⟩ := List.mem_map.1 hc
              exact he f hf)
            simpa only [deepAsg, typeOf] using this
          all_goals exact ⟨_, by simp only [deepAsg, typeOf, has, hasP]; exact checkTo_none rfl⟩
        case anyOf o' ts =>
          obtain ⟨m, rfl⟩ : ∃ m, n = m + 1 := ⟨n - 1, by omega⟩
          refine ⟨some { aSeen := .ty x :: as, bSeen := .ty o :: bs, seenInA := false, seenInB := false }, ?_⟩
          simp only [deepAsg, anyG_const (p := fun t => has E t v) (f := fun g t => asg E (m + 1) g t (typeOf o v)) fun t ht => asg_plain (he t ht) _ o v, has_anyOf_any]
          cases ts with
          | nil => cases v <;> simp [isScalar] at hv <;> rfl
          | cons t ts =>
            simp only [List.isEmpty_cons, Bool.false_eq_true, if_false]
            cases (t :: ts).any fun t => has E t v
            · exact hct
            · rfl
        all_goals exact absurd he.1.1 (by simp [Ty.deep?])
    · intro t vs o hd he hac hf hvs hb
      cases htd : t.deep? with
      | none =>
        obtain ⟨m, rfl⟩ : ∃ m, n = m + 1 := ⟨n - 1, by omega⟩
        exact asg_plains (he.plain htd) none o vs
      | some x =>
        have hoc := occ_id (he.id htd)
        have hxo : x ≠ o := fun h => hb x hoc (h ▸ .refl _)
        refine asg_unseen htd (o' := o) rfl hxo (fun s hs => by cases hs) fun s hs => ?_
        obtain ⟨as, bs, rfl, hn, _⟩ := hs
        obtain ⟨rfl, rfl⟩ := hn rfl
        have hct : checkTo (asg E n) (some { aSeen := [.ty x], bSeen := [.ty o], seenInA := false, seenInB := false }) t (.allOfVal o vs) =
            some (vs.all fun v => has E t v, some { aSeen := [.ty x], bSeen := [.ty o], seenInA := false, seenInB := false }) := by
          simp only [checkTo, Ty.operands?]
          rw [allG_types (f := fun g u => asg E n g t u) (p := fun v => has E t v) fun v hv k => ?_]
          · simp
          · refine A t v (.part o k) _ ?_ he hac (Fulls_iff.1 hf v hv) (fun x hx h => hb x hx (up h)) ?_
            · have : (typeOf (.part o k) v).depth ≤ vdepths vs + 1 := by
                have := typeOf_depth (.part o k) v
                have := vdepth_mem hv
                omega
              omega
            · intro s hs
              simp only [Option.map_some, Guard.swap, Option.some.injEq] at hs
              subst hs
              refine ⟨rfl, rfl, fun y hy => ?_, ?_, by simp⟩
              · rw [htd] at hy; cases hy
                simp [Obj.same, hxo]
              · have : Oid.part o k ≠ x := fun h => hb x hoc (h ▸ .part k (.refl _))
                simp [Obj.same, this]
        cases t <;> simp only [Ty.deep?, reduceCtorEq] at htd
        case anyOf o' ts =>
          obtain ⟨m, rfl⟩ : ∃ m, n = m + 2 := ⟨n - 2, by omega⟩
          refine ⟨some { aSeen := [.ty x], bSeen := [.ty o], seenInA := false, seenInB := false }, ?_⟩
          simp only [deepAsg, anyG_const (p := fun t => vs.all fun v => has E t v) (f := fun g t => asg E (m + 2) g t (.allOfVal o vs))
            fun t ht => asg_plains (he t ht) _ o vs]
          simp only [has_anyOf_any] at hct ⊢
          rw [← any_all]
          cases ts with
          | nil =>
            cases vs with
            | nil => exact absurd rfl hvs
            | cons v vs => rfl
          | cons t ts =>
            simp only [List.isEmpty_cons, Bool.false_eq_true, if_false]
            cases h : (t :: ts).any fun t => vs.all fun v => has E t v
            · rw [Bool.false_or]; exact hct
            · rfl
        all_goals first
          | exact ⟨_, by simp only [deepAsg, Ty.arrayType?, Ty.mapType?]; exact hct⟩
          | exact absurd he.1.1 (by simp [Ty.deep?])

theorem assignable_collection {t : Ty} (he : Elem t) (ha : t.Acyc) {v : Val} (hf : Full v) {o : Oid} (hb : ∀ x, t.occ x → ¬ Below x o) :
    assignable E t (typeOf o v) = instanceOf E t v := by
  unfold assignable
  rw [(asg_collection (E := E) _).1 t v o none (by omega) he ha hf hb (fun s hs => by cases hs), instanceOf_has ha]

end
end Verif.Types.VT
