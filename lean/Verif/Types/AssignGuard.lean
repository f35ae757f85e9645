import Verif.Types.AssignSound
/-!
# The recursion guard and Assignable

Where the guard cannot report a hit, `Assignable` is sound.  There are two such situations, `case1` and `case2`.
-/
set_option autoImplicit false
set_option linter.unusedVariables false
set_option linter.unusedSimpArgs false
set_option linter.unnecessarySeqFocus false
set_option linter.unusedSectionVars false
namespace Verif.Types
open Verif.Value

variable {E : Env}

/-- Are all operands of the type, if it has any, types without parts? -/
def LeafOps (t : Ty) : Prop := ∀ ts ne, t.operands? = some (ts, ne) → ∀ u ∈ ts, u.deep? = none

theorem deepInst_deep {t : Ty} (h : t.deep? = none) : t.deepInst? = none := by
  cases t <;> simp [Ty.deep?] at h <;> rfl

theorem operands_ternary {t : Ty} {ts : List Ty} {ne : Bool} (h : t.operands? = some (ts, ne)) : isTernary t = true := by
  cases t <;> simp [Ty.operands?] at h <;> rfl

theorem kids_operands {t : Ty} (h : isTernary t = true) : ∃ ne, t.operands? = some (kids t, ne) := by
  cases t <;> simp [isTernary] at h <;> exact ⟨_, rfl⟩

theorem kids_parts {t c : Ty} (h : ∀ o vs, t ≠ .allOfVal o vs) (hc : c ∈ kids t) : c ∈ parts t := by
  cases t <;> first | exact hc | exact absurd rfl (h _ _) | cases hc

/-! ## Instance, when no part of the value has been seen -/

/-- No value in the list of the guard is the value or a part of it. -/
def ValFresh (g : G) (p : Oid) : Prop :=
  ∀ s, g = some s → s.seenInB = false ∧ ∀ q, Obj.val q ∈ s.bSeen → Below p q ∧ p ≠ q

/-- The second list and its flag are the same. -/
def SameB : G → G → Prop
  | none, none => True
  | some s, some s' => s'.bSeen = s.bSeen ∧ s'.seenInB = s.seenInB
  | _, _ => False

theorem SameB.refl (g : G) : SameB g g := by cases g <;> simp [SameB]

theorem SameB.trans {a b c : G} (h : SameB a b) (h' : SameB b c) : SameB a c := by
  cases a <;> cases b <;> cases c <;> simp_all [SameB]

theorem ValFresh.of {g g' : G} {p : Oid} (h : ValFresh g p) (hs : SameB g g') : ValFresh g' p := by
  rintro s rfl
  cases g with
  | none => exact hs.elim
  | some s' =>
    obtain ⟨e1, e2⟩ := hs
    rw [e1, e2]
    exact h s' rfl

/-- A value is not the same object as a part of it. -/
def Env.Apart (E : Env) : Prop := ∀ p q, Below p q → p ≠ q → E.same p q = false

theorem not_any_val {p : Oid} {l : List Obj} (hE : E.Apart) (h : ∀ q, Obj.val q ∈ l → Below p q ∧ p ≠ q) : l.any (Obj.same E (.val p)) = false := by
  rw [List.any_eq_false]
  intro x hx
  cases x with
  | ty o => simp [Obj.same]
  | val q => have := h q hx; simp [Obj.same, hE p q this.1 this.2]

theorem below_strict_trans {k : Nat} {p q : Oid} (h : Below p q) : Below (.part p k) q ∧ Oid.part p k ≠ q := by
  refine ⟨.part k h, ?_⟩
  rintro rfl
  exact part_ne (below_antisymm (.part k (.refl p)) h)

theorem inst_leaf {n : Nat} {t : Ty} (ho : t.deepInst? = none) (hd : t.depth < n) (ha : t.Acyc) (g : G) (p : Oid) (v : Val) :
    inst E n g t (p, v) = some (has E t v, g) := by
  cases n with
  | zero => omega
  | succ n =>
    rw [inst, ho]
    dsimp only
    rw [leafInst_has ho v]
    · rfl
    · intro u p v hu
      have := leaf_sub hu
      obtain ⟨g', e, _⟩ := inst_has (E := E) n u none p v (by omega) (this.2 ha) (.none u)
      rw [e]; rfl

theorem inst_B (hE : E.Apart) : ∀ (n : Nat) (t : Ty) (g : G) (p : Oid) (v : Val), t.depth < n → t.Acyc → Every LeafOps t → ValFresh g p →
    ∃ g', inst E n g t (p, v) = some (has E t v, g') ∧ SameB g g' := by
  intro n
  induction n with
  | zero => intro t g p v h; omega
  | succ n IH =>
    intro t g p v hd ha ht hf
    cases ho : t.deepInst? with
    | none => exact ⟨g, inst_leaf ho hd ha g p v, .refl g⟩
    | some o =>
      have N : ∀ c ∈ kids t, ∀ (p : Oid) (v : Val), ∃ g'', inst E n none c (p, v) = some (has E c v, g'') := by
        intro c hc p v
        have hs := kids_spec ho ha hc
        obtain ⟨g'', e, _⟩ := inst_has (E := E) n c none p v (by omega) hs.2.1 (.none c)
        exact ⟨g'', e⟩
      have K : ∀ g0 : G, (∀ k, ValFresh g0 (.part p k)) → ∀ c ∈ kids t, ∀ (q : Oid) (w : Val), (∃ k, q = .part p k) ∨ (q = p ∧ isTernary t = true) → ∀ (g' : G),
          SameB g0 g' → ∃ g'', inst E n g' c (q, w) = some (has E c w, g'') ∧ SameB g0 g'' := by
        intro g0 h0 c hc q w hq g' hg'
        have hs := kids_spec ho ha hc
        by_cases hter : isTernary t = true
        · obtain ⟨ne, hne⟩ := kids_operands hter
          have := deepInst_deep (ht.here _ _ hne c hc)
          exact ⟨g', inst_leaf this (by omega) hs.2.1 g' q w, hg'⟩
        · rcases hq with ⟨k, rfl⟩ | ⟨_, h⟩
          · have hp : c ∈ parts t := kids_parts (by rintro o vs rfl; exact hter rfl) hc
            obtain ⟨g'', e, h⟩ := IH c g' (.part p k) w (by omega) hs.2.1 (ht.part hp) ((h0 k).of hg')
            exact ⟨g'', e, hg'.trans h⟩
          · exact absurd h hter
      rw [inst, ho]
      dsimp only
      cases isDeepVal v with
      | false =>
        simp only [Bool.false_eq_true, if_false]
        refine deepInst_run ho p v (K g fun k s hs => ?_) N (.refl g)
        exact ⟨(hf s hs).1, fun q hq => below_strict_trans ((hf s hs).2 q hq).1⟩
      | true =>
        simp only [if_true]
        cases g with
        | none =>
          have hK : ∀ k, ValFresh (some { aSeen := [.ty o], bSeen := [.val p], seenInA := false, seenInB := false }) (.part p k) := by
            intro k s hs
            cases hs
            refine ⟨rfl, fun q hq => ?_⟩
            simp only [List.mem_singleton, Obj.val.injEq] at hq
            subst hq
            exact below_strict_trans (.refl _)
          obtain ⟨g', e, hr⟩ := deepInst_run ho p v (K _ hK) N (.refl _)
          exact ⟨none, by rw [e]; rfl, trivial⟩
        | some s =>
          have hs := hf s rfl
          have hns : s.bSeen.any (Obj.same E (.val p)) = false := not_any_val hE hs.2
          have hc1 : (s.append E (.ty o) (.val p)).2.seenInB = false := by simp [Guard.append, hs.1, hns]
          have hc2 : (s.append E (.ty o) (.val p)).2.bSeen = .val p :: s.bSeen := by simp [Guard.append, hs.1, hns]
          have hc3 : (s.append E (.ty o) (.val p)).1.seenInB = false := by simp [Guard.append, hs.1, hns]
          have hc4 : (s.append E (.ty o) (.val p)).1.bSeen = s.bSeen := by simp [Guard.append]
          dsimp only
          rw [show (s.append E (.ty o) (.val p)).2.hit E = false by simp [Guard.hit, hc1]]
          simp only [Bool.false_eq_true, if_false]
          have hK : ∀ k, ValFresh (some (s.append E (.ty o) (.val p)).2) (.part p k) := by
            intro k s' hs'
            cases hs'
            refine ⟨hc1, fun q hq => ?_⟩
            rw [hc2] at hq
            rcases List.mem_cons.1 hq with h | h
            · cases h; exact below_strict_trans (.refl _)
            · exact below_strict_trans (hs.2 q h).1
          obtain ⟨g', e, hr⟩ := deepInst_run ho p v (K _ hK) N (.refl _)
          refine ⟨some (s.append E (.ty o) (.val p)).1, by rw [e]; rfl, ?_⟩
          exact ⟨hc4, by rw [hc3, hs.1]⟩

/-! ## What comes from the type on the right -/

theorem View.operand_from {F : Feat} {b : Ty} {us : List Ty} {fl : Bool} (hb : View F b us fl) (ht : Tree b) {ts : List Ty} {ne : Bool}
    (ho : b.operands? = some (ts, ne)) {u : Ty} (hu : u ∈ ts) : From b u := by
  have hval : ∀ o vs, b = .allOfVal o vs → ∀ v ∈ vs, NoSens v ∧ Value.WF v := by
    rintro o vs rfl
    cases hb with
    | plain h =>
      have hr := h.every.here
      have hok := h.ok
      rw [Ty.Ok] at hok
      exact fun v hv => ⟨hr.2 v hv, (WFs_iff vs).1 hok v hv⟩
    | unionVal h => exact h
  cases b <;> simp only [Ty.operands?, reduceCtorEq, Option.some.injEq, Prod.mk.injEq] at ho <;> obtain ⟨rfl, rfl⟩ := ho
  case allOfVal o vs =>
    have h := hval o vs rfl
    exact (typesOf_IsTypeOf (fun v hv => (h v hv).1) (fun v hv => (h v hv).2) hu).From_allOfVal
  all_goals exact .part ht hu

theorem IsTypeOf.operands {o : Oid} {t : Ty} (h : IsTypeOf o t) : t.operands? = none := by
  obtain ⟨o', v, hv, _, _, _, rfl⟩ := h
  rcases typeOf_cases o' hv.ne with e | ⟨e, _⟩ | ⟨e, _⟩ <;> rw [e] <;> rfl

theorem IsTypeOf.leafOps {o : Oid} {t : Ty} (h : IsTypeOf o t) : LeafOps t := by
  intro ts ne ho; rw [h.operands] at ho; cases ho

/-! ## First case -/

/-- On the left: operands have no parts. -/
abbrev L1 : Ty → Prop := LeafOps

/-- On the right: where the type has operands, elements or fields, their operands have no parts. -/
def R1 (t : Ty) : Prop := isTernary t = true ∨ isTupleStruct t = true → ∀ c ∈ parts t, LeafOps c

/-- What stands on the right -/
structure View1 (F : Feat) (b : Ty) (us : List Ty) (fl : Bool) : Prop where
  view : View F b us fl
  tree : Tree b
  ops : ∀ ts ne, b.operands? = some (ts, ne) → ∀ u ∈ ts, LeafOps u ∧ Every R1 u
  plain : fl = false → Every R1 b

theorem View1.mk' {F : Feat} {b : Ty} (hb : Right F b) (h : Every R1 b) : View1 F b [b] false := by
  refine ⟨.plain hb, hb.tree, fun ts ne ho u hu => ?_, fun _ => h⟩
  by_cases hv : ∃ o vs, b = .allOfVal o vs
  · obtain ⟨o, vs, rfl⟩ := hv
    have hr := hb.every.here
    have hok := hb.ok
    rw [Ty.Ok] at hok
    cases ho
    have hty := typesOf_IsTypeOf hr.2 ((WFs_iff vs).1 hok) hu
    exact ⟨hty.leafOps, hty.every (fun h => by simp [isTernary, isTupleStruct] at h) (fun _ _ h => by simp [isTernary, isTupleStruct] at h)
      fun _ _ _ _ _ h => by simp [isTernary, isTupleStruct] at h⟩
  · have hp : u ∈ parts b := by
      cases b <;> simp only [Ty.operands?, reduceCtorEq, Option.some.injEq, Prod.mk.injEq] at ho <;> obtain ⟨rfl, rfl⟩ := ho
      case allOfVal o vs => exact absurd ⟨o, vs, rfl⟩ hv
      all_goals exact hu
    exact ⟨h.here (.inl (operands_ternary ho)) u hp, h.part hp⟩

theorem R1.typ {o : Oid} {t : Ty} (h : IsTypeOf o t) : Every R1 t :=
  h.every (fun h => by simp [isTernary, isTupleStruct] at h) (fun _ _ h => by simp [isTernary, isTupleStruct] at h)
      fun _ _ _ _ _ h => by simp [isTernary, isTupleStruct] at h

theorem Kid.view1 {F : Feat} {b d : Ty} {us : List Ty} {fl : Bool} (hb : Right F b) (h1 : Every R1 b) (h : Kid b d us fl) : View1 F d us fl := by
  cases h with
  | part _ h => exact .mk' (hb.part h) (h1.part h)
  | typ _ h _ => exact .mk' (.typeOf h) (R1.typ h)
  | any => exact .mk' .any (.leaf (fun h => by simp [isTernary, isTupleStruct] at h) rfl)
  | union ht ho hb' hne hu hl hm =>
    have hk : Kid b (.allOf _ us) us true := .union ht ho hb' hne hu hl hm
    refine ⟨hk.view hb, (hk.from hb).tree, fun ts ne ho' u hm => ?_, by simp⟩
    cases ho'
    rcases hu u hm with h | h
    · exact ⟨h1.here (.inr ht) u h, h1.part h⟩
    · exact ⟨h.leafOps, R1.typ h⟩
  | @unionVal o o' vs ho hb' hne hv hm =>
    have hk : Kid b (.allOfVal o' vs) (typesOf o' vs) true := .unionVal ho hb' hne hv hm
    refine ⟨hk.view hb, (hk.from hb).tree, fun ts ne ho' u hm => ?_, by simp⟩
    cases ho'
    have hty := typesOf_IsTypeOf (fun v h => (hv v h).1) (fun v h => (hv v h).2) hm
    exact ⟨hty.leafOps, R1.typ hty⟩

/-- What is known about the guard -/
structure Inv1 (s : Guard) (a b : Ty) : Prop where
  flags : s.seenInA = false ∧ s.seenInB = false
  inA : ∀ x ∈ s.aSeen, ∃ o, x = .ty o ∧ ¬ a.owns o ∧ ¬ b.owns o
  inB : ∀ x ∈ s.bSeen, ∃ o, x = .ty o ∧ ¬ b.owns o ∧ (a.owns o → a.deep? = some o)
  ops : LeafOps b ∨ ∀ x ∈ s.bSeen, ∃ o, x = .ty o ∧ ¬ a.owns o

theorem not_any_ty {o : Oid} {l : List Obj} {P : Oid → Prop} (h : ∀ x ∈ l, ∃ o, x = .ty o ∧ P o) (ho : ¬ P o) : l.any (Obj.same E (.ty o)) = false :=
  not_any_same fun hm => by obtain ⟨o', e, hp⟩ := h _ hm; cases e; exact ho hp

/-- The guard of the parts, after the pair has been added -/
structure Inv1' (s : Guard) (a b : Ty) : Prop where
  flags : s.seenInA = false ∧ s.seenInB = false
  inA : ∀ x ∈ s.aSeen, ∃ o, x = .ty o ∧ (a.owns o → a.deep? = some o) ∧ ¬ b.owns o
  inB : ∀ x ∈ s.bSeen, ∃ o, x = .ty o ∧ (b.owns o → b.deep? = some o) ∧ (a.owns o → a.deep? = some o)
  ops : LeafOps b ∨ ∀ x ∈ s.bSeen, ∃ o, x = .ty o ∧ ¬ a.owns o

theorem Inv1.add {s : Guard} {a b : Ty} (h : Inv1 s a b) (hap : Apart a b) {o o' : Oid} (ho : a.deep? = some o) (ho' : b.deep? = some o') :
    (s.append E (.ty o) (.ty o')).1 = s ∧ (s.append E (.ty o) (.ty o')).2.hit E = false ∧ Inv1' (s.append E (.ty o) (.ty o')).2 a b := by
  have h1 : s.aSeen.any (Obj.same E (.ty o)) = false :=
    not_any_ty (P := fun o => ¬ a.owns o) (fun x hx => by obtain ⟨o, e, h, _⟩ := h.inA x hx; exact ⟨o, e, h⟩) fun h => h (owns_deep ho)
  have h2 : s.bSeen.any (Obj.same E (.ty o')) = false :=
    not_any_ty (P := fun o => ¬ b.owns o) (fun x hx => by obtain ⟨o, e, h, _⟩ := h.inB x hx; exact ⟨o, e, h⟩) fun h => h (owns_deep ho')
  have e : (s.append E (.ty o) (.ty o')).2 = { aSeen := .ty o :: s.aSeen, bSeen := .ty o' :: s.bSeen, seenInA := false, seenInB := false } := by
    simp [Guard.append, h1, h2, h.flags.1, h.flags.2]
  refine ⟨by cases s; simp_all [Guard.append, h.flags.1, h.flags.2], by rw [e]; simp [Guard.hit], ?_⟩
  rw [e]
  refine ⟨⟨rfl, rfl⟩, ?_, ?_, ?_⟩
  · intro x hx
    rcases List.mem_cons.1 hx with rfl | hx
    · exact ⟨o, rfl, fun _ => ho, hap o (owns_deep ho)⟩
    · obtain ⟨x', e, h1, h2⟩ := h.inA x hx
      exact ⟨x', e, fun h => absurd h h1, h2⟩
  · intro x hx
    rcases List.mem_cons.1 hx with rfl | hx
    · exact ⟨o', rfl, fun _ => ho', fun h => absurd (owns_deep ho') (hap o' h)⟩
    · obtain ⟨x', e, h1, h2⟩ := h.inB x hx
      exact ⟨x', e, fun h => absurd h h1, h2⟩
  · rcases h.ops with h | h
    · exact .inl h
    · refine .inr fun x hx => ?_
      rcases List.mem_cons.1 hx with rfl | hx
      · exact ⟨o', rfl, fun h => hap o' h (owns_deep ho')⟩
      · exact h x hx

theorem Inv1'.first {a b : Ty} (hap : Apart a b) {o o' : Oid} (ho : a.deep? = some o) (ho' : b.deep? = some o') :
    Inv1' { aSeen := [.ty o], bSeen := [.ty o'], seenInA := false, seenInB := false } a b := by
  have h := (Inv1.add (E := { rx := fun _ _ => false, fold := fun _ _ => false, same := fun _ _ => false })
    (s := { aSeen := [], bSeen := [], seenInA := false, seenInB := false }) (a := a) (b := b)
    ⟨⟨rfl, rfl⟩, by simp, by simp, .inr (by simp)⟩ hap ho ho').2.2
  simpa [Guard.append] using h

/-- For the parts of the one and what comes from the other -/
theorem Inv1'.kid {s : Guard} {a b c d : Ty} (h : Inv1' s a b) (hc : From a c) (hd : From b d) : Inv1 s c d := by
  refine ⟨h.flags, ?_, ?_, .inr ?_⟩
  · intro x hx
    obtain ⟨o, e, h1, h2⟩ := h.inA x hx
    exact ⟨o, e, fun h => hc.new o (h1 (hc.sub o h)) h, fun h => h2 (hd.sub o h)⟩
  · intro x hx
    obtain ⟨o, e, h1, h2⟩ := h.inB x hx
    exact ⟨o, e, fun h => hd.new o (h1 (hd.sub o h)) h, fun h => absurd h fun h => hc.new o (h2 (hc.sub o h)) h⟩
  · intro x hx
    obtain ⟨o, e, h1, h2⟩ := h.inB x hx
    exact ⟨o, e, fun h => hc.new o (h2 (hc.sub o h)) h⟩

/-- For the type on the left and an operand of the one on the right -/
theorem Inv1'.operand {s : Guard} {a b u : Ty} (h : Inv1' s a b) (hu : From b u) (hl : LeafOps u) (hn : ∀ x ∈ s.bSeen, ∃ o, x = .ty o ∧ ¬ a.owns o) : Inv1 s.swap a u := by
  refine ⟨⟨h.flags.2, h.flags.1⟩, ?_, ?_, .inl hl⟩
  · intro x hx
    obtain ⟨o, e, h1⟩ := hn x hx
    obtain ⟨o', e', h2, h3⟩ := h.inB x hx
    subst e; cases e'
    exact ⟨o, rfl, h1, fun h => hu.new o (h2 (hu.sub o h)) h⟩
  · intro x hx
    obtain ⟨o, e, h1, h2⟩ := h.inA x hx
    exact ⟨o, e, fun h => h2 (hu.sub o h), h1⟩

theorem left_ops {a c : Ty} (h : LeafOps a) (hv : ∀ o vs, a ≠ .allOfVal o vs) (ht : isTernary a = true) (hc : c ∈ parts a) : c.deep? = none := by
  obtain ⟨ne, ho⟩ := kids_operands ht
  refine h _ _ ho c ?_
  cases a <;> simp only [isTernary, Bool.false_eq_true] at ht <;> first | exact hc | exact absurd rfl (hv _ _)

/-- Left operands without parts: the guard is never changed. -/
theorem case1 {F : Feat} (hE : E.Apart) : ∀ (n : Nat) (a b : Ty) (us : List Ty) (fl : Bool), a.depth + b.depth < n → Left F a → Every L1 a → Tree a →
    View1 F b us fl → Apart a b → (fl = true → AndFree a) → ∀ (g : G), (∀ s, g = some s → Inv1 s a b) → ∀ (r : Bool) (g' : G),
    asg E n g a b = some (r, g') → g' = g ∧ (r = true → ∀ u ∈ us, Incl E u a)
  | 0, _, _, _, _, h, _, _, _, _, _, _, _, _, _, _, _ => by omega
  | n + 1, a, b, us, fl, hdp, ha, hl1, hta, hb, hap, hfl, g, hg, r, g', e => by
    cases ho : a.deep? with
    | none => exact leafL (n + 1) a b us fl ha ho hb.view g r g' e
    | some o =>
      have hnv : ∀ o vs, a ≠ .allOfVal o vs := by rintro o vs rfl; exact ha.every.here
      cases ho' : b.deep? with
      | none =>
        cases hb.view with
        | plain hr =>
          have := leafR (n + 1) a b ha hr ho' g r g' e
          exact ⟨this.1, fun h => by simpa using this.2 h⟩
        | union _ => cases ho'
        | unionVal _ => cases ho'
      | some o' =>
        rw [asg, ho, ho'] at e
        dsimp only at e
        have hne : o ≠ o' := fun h => hap o (owns_deep ho) (h ▸ owns_deep ho')
        rw [if_neg hne] at e
        -- the two types themselves, with the guard of the parts
        have main : ∀ s, Inv1' s a b → ∀ r g', deepAsg E (tyEq n []) (asg E n) (inst E n) (some s) a b = some (r, g') → r = true → ∀ u ∈ us, Incl E u a := by
          intro s hs r g' e
          have hops : ∀ ts ne, b.operands? = some (ts, ne) → ∀ u ∈ ts, Call (fun g => asg E n g a u) (· = (some s).map Guard.swap) (Incl E u a) := by
            intro ts ne hop u hu g r g' hg e
            subst hg
            have hRu := hb.view.operands hop u hu
            have hfr := hb.view.operand_from hb.tree hop hu
            have hd := operands_depth hop u hu
            rcases hs.ops with h | h
            · have := leafR n a u ha hRu (h ts ne hop u hu) _ r g' e
              exact this
            · obtain ⟨hl, hev⟩ := hb.ops ts ne hop u hu
              have := case1 hE n a u [u] false (by omega) ha hl1 hta (.mk' hRu hev) (hap.sub (fun _ h => h) hfr.sub) (by simp)
                _ (by rintro s' hs'; cases hs'; exact hs.operand hfr hl h) r g' e
              exact ⟨this.1, fun h => this.2 h u (by simp)⟩
          cases hfe : fl with
          | true =>
            subst hfe
            have hc := deepAsg_union (E := E) (eqT := tyEq n []) (rec := asg E n) (ins := inst E n) (J := (· = some s)) (J' := (· = (some s).map Guard.swap)) ha ho hb.view (hfl rfl)
              (by rintro _ rfl; rfl) (fun ht c hc _ g r g' hg e => ?_) hops (some s) r g' rfl e
            · exact hc.2
            · subst hg
              have hcl := left_ops hl1.here hnv ht hc
              exact leafL n c b us true (ha.part hc) hcl hb.view _ r g' e
          | false =>
            subst hfe
            have hR1 := hb.plain rfl
            have hview := hb.view
            cases hview with
            | plain hr =>
              by_cases hx : isTupleStruct a = true ∧ ∃ o v, b = .exactD o v
              · obtain ⟨hts, o1, v, rfl⟩ := hx
                rintro rfl
                have hf : ValFresh (some s) o1 := by
                  rintro s' hs'
                  cases hs'
                  refine ⟨hs.flags.2, fun q hq => ?_⟩
                  obtain ⟨o2, e2, _⟩ := hs.inB _ hq
                  cases e2
                have hdx : 1 ≤ (Ty.exactD o1 v).depth := by simp [Ty.depth]
                obtain ⟨g1, e1, _⟩ := inst_B hE n a (some s) o1 v (by omega) ha.acyc hl1 hf
                simp only [List.mem_singleton, forall_eq]
                refine deepAsg_exact ha hts hr (fun g2 e2 => ?_) e
                rw [e1] at e2
                simp only [Option.some.injEq, Prod.mk.injEq] at e2
                exact e2.1
              have hc := deepAsg_plain (n := n) (E := E) (rec := asg E n) (ins := inst E n) (J := (· = some s)) (J' := (· = (some s).map Guard.swap)) ha ho hr
                (by rintro _ rfl; rfl) ?_ ?_ ?_ ?_ hops (fun hts o1 v hb => absurd ⟨hts, o1, v, hb⟩ hx) (some s) r g' rfl e
              · simpa using hc.2
              · intro _ c hc d us fl hk hd hfl g r g' hg e
                subst hg
                have hfc := From.part hta hc
                have hfd := hk.from hr
                have := part_depth hc
                exact case1 hE n c d us fl (by omega) (ha.part hc) (hl1.part hc) hfc.tree (hk.view1 hr hR1) (hap.sub hfc.sub hfd.sub) hfl _
                  (by rintro s' hs'; cases hs'; exact hs.kid hfc hfd) r g' e
              · intro c hc d us fl hk hd hfl g' e
                have hfc := From.part hta hc
                have hfd := hk.from hr
                have := part_depth hc
                exact (case1 hE n c d us fl (by omega) (ha.part hc) (hl1.part hc) hfc.tree (hk.view1 hr hR1) (hap.sub hfc.sub hfd.sub) hfl _
                  (by rintro s' hs'; cases hs') _ g' e).2 rfl
              · intro ht c hc g r g' hg e
                subst hg
                have := leafL n c b [b] false (ha.part hc) (left_ops hl1.here hnv ht hc) (.plain hr) _ r g' e
                exact ⟨this.1, fun h => this.2 h b (by simp)⟩
              · intro ht c hc ts ne hop u hu g r g' hg e
                subst hg
                have := leafL n c u [u] false (ha.part hc) (left_ops hl1.here hnv ht hc) (.plain ((View.plain hr).operands hop u hu)) _ r g' e
                exact ⟨this.1, fun h => this.2 h u (by simp)⟩
        cases g with
        | none =>
          dsimp only at e
          rw [Option.map_eq_some_iff] at e
          obtain ⟨⟨r1, g1⟩, e1, e2⟩ := e
          simp only [Prod.mk.injEq] at e2
          obtain ⟨rfl, rfl⟩ := e2
          exact ⟨rfl, main _ (.first hap ho ho') r1 g1 e1⟩
        | some s =>
          dsimp only at e
          obtain ⟨h1, h2, h3⟩ := (hg s rfl).add (E := E) hap ho ho'
          rw [h2, h1] at e
          simp only [Bool.false_eq_true, if_false] at e
          rw [Option.map_eq_some_iff] at e
          obtain ⟨⟨r1, g1⟩, e1, e2⟩ := e
          simp only [Prod.mk.injEq] at e2
          obtain ⟨rfl, rfl⟩ := e2
          exact ⟨rfl, main _ h3 r1 g1 e1⟩

/-! ## Second case -/

/-- On the left: tuple and struct types only when there are no exact types on the right. -/
def L2 (X : Bool) (t : Ty) : Prop := X = true → isTupleStruct t = false

/-- On the right: operands have no parts, nor do several elements or fields, and values are not nested. -/
structure R2 (X : Bool) (t : Ty) : Prop where
  ops : LeafOps t
  elems : isTupleStruct t = true → 2 ≤ (parts t).length → ∀ c ∈ parts t, c.deep? = none
  vals : ∀ v ∈ holds t, isDeepExact v = false
  exact : ∀ o v, t = .exactD o v → X = true

theorem typeOf_leaf (o : Oid) {v : Val} (h : ∀ w, v ≠ .sens w) (hd : isDeepExact v = false) : (typeOf o v).deep? = none := by
  rcases typeOf_cases o h with e | ⟨e, _⟩ | ⟨e, hd'⟩
  · rw [e]; rfl
  · rw [e]; rfl
  · rw [hd] at hd'; cases hd'

theorem typesOf_leaf {o : Oid} {vs : List Val} (h : ∀ v ∈ vs, NoSens v ∧ isDeepExact v = false) {u : Ty} (hu : u ∈ typesOf o vs) : u.deep? = none := by
  obtain ⟨k, v, hv, rfl⟩ := typesOf_mem hu
  exact typeOf_leaf _ (h v hv).1.ne (h v hv).2

structure View2 (F : Feat) (X : Bool) (b : Ty) (us : List Ty) (fl : Bool) : Prop where
  view : View F b us fl
  ops : LeafOps b
  plain : fl = false → Every (R2 X) b

theorem View2.mk' {F : Feat} {X : Bool} {b : Ty} (hb : Right F b) (h : Every (R2 X) b) : View2 F X b [b] false := ⟨.plain hb, h.here.ops, fun _ => h⟩

theorem R2.leaf {X : Bool} {t : Ty} (h : t.deep? = none) (hp : parts t = []) : Every (R2 X) t := by
  refine .leaf ⟨?_, ?_, ?_, ?_⟩ hp
  · intro ts ne ho; cases t <;> simp [Ty.deep?] at h <;> cases ho
  · intro ht; cases t <;> simp [Ty.deep?] at h <;> cases ht
  · intro v hv; cases t <;> simp [Ty.deep?] at h <;> cases hv
  · rintro o v rfl; cases h

theorem R2.typ {X : Bool} {o : Oid} {t : Ty} (h : IsTypeOf o t) (hd : t.deep? = none) : Every (R2 X) t := by
  refine R2.leaf hd ?_
  obtain ⟨o', v, hv, _, _, _, rfl⟩ := h
  exact typeOf_parts o' hv.ne

theorem Kid.view2 {F : Feat} {X : Bool} {b d : Ty} {us : List Ty} {fl : Bool} (hb : Right F b) (h2 : Every (R2 X) b) (h : Kid b d us fl) : View2 F X d us fl := by
  have hv := h.view hb
  have hh := h2.here
  have hty : ∀ {o t}, IsTypeOf o t → (∃ o', ∃ v ∈ holds b, t = typeOf o' v) → t.deep? = none := by
    rintro o t ⟨_, v, hv, _, _, _, rfl⟩ ⟨o', w, hw, e⟩
    have hs : ∀ x, w ≠ .sens x := by
      rintro x rfl
      have h1 := hh.vals _ hw
      have : parts (typeOf o' (.sens x)) = [] := by rw [← e]; exact typeOf_parts _ hv.ne
      simp [typeOf, genericOf, parts] at this
    rw [e]
    exact typeOf_leaf o' hs (hh.vals w hw)
  cases h with
  | part _ h => exact .mk' (hb.part h) (h2.part h)
  | typ _ h hm => exact .mk' (.typeOf h) (R2.typ h (hty h hm))
  | any => exact .mk' .any (R2.leaf rfl rfl)
  | union ht ho hb' hne hu hl hm =>
    refine ⟨hv, fun ts ne ho' u hmu => ?_, by simp⟩
    cases ho'
    rcases hu u hmu with h | h
    · exact hh.elems ht hl u h
    · rcases hm u hmu with h' | h'
      · exact hh.elems ht hl u h'
      · exact hty h h'
  | unionVal ho hb' hne hvv hm =>
    refine ⟨hv, fun ts ne ho' u hmu => ?_, by simp⟩
    cases ho'
    exact typesOf_leaf (fun v hv => ⟨(hvv v hv).1, hh.vals v (hm v hv)⟩) hmu

/-- What is known about the guard -/
structure Inv2 (s : Guard) (a : Ty) : Prop where
  flag : s.seenInA = false
  inA : ∀ x ∈ s.aSeen, ∃ o, x = .ty o ∧ ¬ a.owns o

theorem Inv2.of {g g' : G} {a : Ty} (h : ∀ s, g = some s → Inv2 s a) (hr : GR g g') : ∀ s, g' = some s → Inv2 s a := by
  rintro s rfl
  cases g with
  | none => exact hr.elim
  | some s' =>
    obtain ⟨e1, e2⟩ := hr
    have := h s' rfl
    exact ⟨by rw [e2]; exact this.flag, by rw [e1]; exact this.inA⟩

/-- Right operands without parts: what the guard has seen of the left is never changed. -/
theorem case2 {F : Feat} {X : Bool} : ∀ (n : Nat) (a b : Ty) (us : List Ty) (fl : Bool), Left F a → Every (L2 X) a → Tree a →
    View2 F X b us fl → Apart a b → (fl = true → AndFree a) → ∀ (g : G), (∀ s, g = some s → Inv2 s a) → ∀ (r : Bool) (g' : G),
    asg E n g a b = some (r, g') → GR g g' ∧ (r = true → ∀ u ∈ us, Incl E u a)
  | 0, _, _, _, _, _, _, _, _, _, _, _, _, _, _, e => by simp [asg] at e
  | n + 1, a, b, us, fl, ha, hl2, hta, hb, hap, hfl, g, hg, r, g', e => by
    cases ho : a.deep? with
    | none =>
      have := leafL (n + 1) a b us fl ha ho hb.view g r g' e
      exact ⟨this.1 ▸ .refl _, this.2⟩
    | some o =>
      cases ho' : b.deep? with
      | none =>
        cases hb.view with
        | plain hr =>
          have := leafR (n + 1) a b ha hr ho' g r g' e
          exact ⟨this.1 ▸ .refl _, fun h => by simpa using this.2 h⟩
        | union _ => cases ho'
        | unionVal _ => cases ho'
      | some o' =>
        rw [asg, ho, ho'] at e
        dsimp only at e
        have hne : o ≠ o' := fun h => hap o (owns_deep ho) (h ▸ owns_deep ho')
        rw [if_neg hne] at e
        have main : ∀ s, (∀ c ∈ parts a, Inv2 s c) → ∀ r g', deepAsg E (tyEq n []) (asg E n) (inst E n) (some s) a b = some (r, g') → r = true → ∀ u ∈ us, Incl E u a := by
          intro s hs r g' e
          have hops : ∀ (J : G → Prop) c, Left F c → ∀ ts ne, b.operands? = some (ts, ne) → ∀ u ∈ ts, Call (fun g => asg E n g c u) J (Incl E u c) := by
            intro J c hc ts ne hop u hu g r g' hg e
            have := leafR n c u hc (hb.view.operands hop u hu) (hb.ops ts ne hop u hu) _ r g' e
            exact ⟨this.1 ▸ hg, this.2⟩
          cases hfe : fl with
          | true =>
            subst hfe
            have hc := deepAsg_union (E := E) (eqT := tyEq n []) (rec := asg E n) (ins := inst E n) (J := GR (some s)) (J' := fun _ => True) ha ho hb.view (hfl rfl)
              (fun _ _ => trivial) (fun ht c hc haf g r g' hg e => ?_) (hops _ a ha) (some s) r g' (.refl _) e
            · exact hc.2
            · have hfc := From.part hta hc
              have := case2 n c b us true (ha.part hc) (hl2.part hc) hfc.tree hb (hap.sub hfc.sub fun _ h => h) (fun _ => haf) g
                (Inv2.of (by rintro s' hs'; cases hs'; exact hs c hc) hg) r g' e
              exact ⟨hg.trans this.1, this.2⟩
          | false =>
            subst hfe
            have hR2 := hb.plain rfl
            have hview := hb.view
            cases hview with
            | plain hr =>
              have hkid : ∀ c ∈ parts a, ∀ d us fl, Kid b d us fl → (fl = true → AndFree c) → ∀ g, (∀ s, g = some s → Inv2 s c) → ∀ r g',
                  asg E n g c d = some (r, g') → GR g g' ∧ (r = true → ∀ u ∈ us, Incl E u c) := by
                intro c hc d us fl hk hfl g hg r g' e
                have hfc := From.part hta hc
                have hfd := hk.from hr
                exact case2 n c d us fl (ha.part hc) (hl2.part hc) hfc.tree (hk.view2 hr hR2) (hap.sub hfc.sub hfd.sub) hfl g hg r g' e
              have hc := deepAsg_plain (n := n) (E := E) (rec := asg E n) (ins := inst E n) (J := GR (some s)) (J' := fun _ => True) ha ho hr
                (fun _ _ => trivial) ?_ ?_ ?_ ?_ (hops _ a ha) ?_ (some s) r g' (.refl _) e
              · simpa using hc.2
              · intro _ c hc d us fl hk hd hfl g r g' hg e
                have := hkid c hc d us fl hk hfl g (Inv2.of (by rintro s' hs'; cases hs'; exact hs c hc) hg) r g' e
                exact ⟨hg.trans this.1, this.2⟩
              · intro c hc d us fl hk hd hfl g' e
                exact (hkid c hc d us fl hk hfl none (by rintro s' hs'; cases hs') _ g' e).2 rfl
              · intro ht c hc g r g' hg e
                have hfc := From.part hta hc
                have := case2 n c b [b] false (ha.part hc) (hl2.part hc) hfc.tree hb (hap.sub hfc.sub fun _ h => h) (by simp) g
                  (Inv2.of (by rintro s' hs'; cases hs'; exact hs c hc) hg) r g' e
                exact ⟨hg.trans this.1, fun h => this.2 h b (by simp)⟩
              · intro ht c hc ts ne hop u hu
                exact hops _ c (ha.part hc) ts ne hop u hu
              · rintro hts o1 v rfl
                have h1 := hl2.here (hR2.here.exact _ _ rfl)
                rw [hts] at h1; cases h1
        have hkids : ∀ s : Guard, Inv2 s a → ∀ c ∈ parts a, Inv2 { s with aSeen := .ty o :: s.aSeen } c := by
          intro s hs c hc
          have hfc := From.part hta hc
          refine ⟨hs.flag, fun x hx => ?_⟩
          rcases List.mem_cons.1 hx with rfl | hx
          · exact ⟨o, rfl, hfc.new o ho⟩
          · obtain ⟨o1, e1, h1⟩ := hs.inA x hx
            exact ⟨o1, e1, fun h => h1 (hfc.sub o1 h)⟩
        cases g with
        | none =>
          dsimp only at e
          rw [Option.map_eq_some_iff] at e
          obtain ⟨⟨r1, g1⟩, e1, e2⟩ := e
          simp only [Prod.mk.injEq] at e2
          obtain ⟨rfl, rfl⟩ := e2
          refine ⟨.refl _, main _ (fun c hc => ?_) r1 g1 e1⟩
          have := hkids { aSeen := [], bSeen := [.ty o'], seenInA := false, seenInB := false } ⟨rfl, by simp⟩ c hc
          exact this
        | some s =>
          dsimp only at e
          have hs := hg s rfl
          have hns : s.aSeen.any (Obj.same E (.ty o)) = false := not_any_ty (P := fun o => ¬ a.owns o) hs.inA fun h => h (owns_deep ho)
          have hc1 : (s.append E (.ty o) (.ty o')).2.seenInA = false := by simp [Guard.append, hs.flag, hns]
          have hc2 : (s.append E (.ty o) (.ty o')).2.aSeen = .ty o :: s.aSeen := by simp [Guard.append, hs.flag, hns]
          have hc3 : (s.append E (.ty o) (.ty o')).1.seenInA = false := by simp [Guard.append, hs.flag, hns]
          have hc4 : (s.append E (.ty o) (.ty o')).1.aSeen = s.aSeen := by simp [Guard.append]
          rw [show (s.append E (.ty o) (.ty o')).2.hit E = false by simp [Guard.hit, hc1]] at e
          simp only [Bool.false_eq_true, if_false] at e
          rw [Option.map_eq_some_iff] at e
          obtain ⟨⟨r1, g1⟩, e1, e2⟩ := e
          simp only [Prod.mk.injEq] at e2
          obtain ⟨rfl, rfl⟩ := e2
          refine ⟨⟨hc4, by rw [hc3, hs.flag]⟩, main _ (fun c hc => ?_) r1 g1 e1⟩
          have := hkids s hs c hc
          exact ⟨hc1, by rw [hc2]; exact this.inA⟩

end Verif.Types
