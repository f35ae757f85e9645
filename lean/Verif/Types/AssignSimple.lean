import Verif.Types.AssignRange
/-!
# Assignability of types without tuples, structs and logical operations

There the recursion guard and the identities play no part, and `Assignable` is a plain recursive function.
-/
set_option autoImplicit false
set_option linter.unusedVariables false
set_option linter.unusedSimpArgs false
set_option linter.unnecessarySeqFocus false
namespace Verif.Types
open Verif.Value

variable {E : Env}

/-- Types of scalars, arrays, maps and sensitive values -/
def Simple : Ty → Prop
  | .sizedArr _ e _ _ => Simple e
  | .sizedMap _ k v _ _ => Simple k ∧ Simple v
  | .sens _ t => Simple t
  | .exactD .. | .tuple .. | .struct .. | .allOf .. | .allOfVal .. | .anyOf .. | .oneOf .. | .not _ | .metaT _ | .metaMeta => False
  | _ => True

/-- What `Assignable` computes for them -/
def sub (E : Env) : Ty → Ty → Bool
  | .sizedArr _ e lo hi, .sizedArr _ e' lo' hi' => decide (lo ≤ lo') && decide (hi' ≤ hi) && sub E e e'
  | .sizedMap _ k v lo hi, .sizedMap _ k' v' lo' hi' => decide (lo ≤ lo') && decide (hi' ≤ hi) && sub E k k' && sub E v v'
  | .sizedMap _ k v lo hi, .mapT => decide (lo ≤ 0) && decide (maxInt ≤ hi) && sub E k .any && sub E v .any
  | .sens _ t, .sens _ t' => sub E t t'
  | .sizedArr .., _ | .sizedMap .., _ | .sens .., _ => false
  | a, b => (leafCase E (fun _ _ => false) a b).getD false

theorem leafCase_eqT {eqT eqT' : Ty → Ty → Bool} {a b : Ty} (ha : Simple a) : leafCase E eqT a b = leafCase E eqT' a b := by
  cases a <;> first | exact ha.elim | (cases b <;> first | rfl | (rename_i v; cases v <;> rfl))

theorem simple_operands {b : Ty} (h : Simple b) : b.operands? = none := by
  cases b <;> first | rfl | exact h.elim

theorem sub_leaf {a b : Ty} (h : a.deep? = none) : sub E a b = (leafCase E (fun _ _ => false) a b).getD false := by
  cases a <;> simp only [Ty.deep?, reduceCtorEq] at h <;> simp only [sub]

theorem leafAsg_simple {eqT : Ty → Ty → Bool} {rec : Ty → Ty → Option Bool} {a b : Ty} (ha : Simple a) (hb : Simple b) (hd : a.deep? = none) :
    leafAsg E eqT rec a b = some (sub E a b) := by
  rw [sub_leaf hd, leafCase_eqT (eqT' := eqT) ha]
  unfold leafAsg
  split
  · exact ha.elim
  · rw [simple_operands hb]
    split <;> rename_i h <;> rw [h] <;> rfl

theorem simple_part {a c : Ty} (h : Simple a) (hc : c ∈ parts a) : Simple c := by
  cases a <;> simp only [parts, List.not_mem_nil, List.mem_cons, or_false] at hc <;> first | exact h.elim | skip
  case sizedArr => subst hc; exact h
  case sizedMap => rcases hc with rfl | rfl; exact h.1; exact h.2
  case sens => subst hc; exact h

theorem deepAsg_simple {eqT : Ty → Ty → Bool} {rec : G → Ty → Ty → Check} {ins : G → Ty → Oid × Val → Check} {a b : Ty} {o : Oid} {g : G}
    (ha : Simple a) (hb : Simple b) (hd : a.deep? = some o)
    (h : ∀ c ∈ parts a, ∀ d, d ∈ parts b ∨ (d = .any) → ∀ g', GR g g' ∨ g' = none → ∃ g'', rec g' c d = some (sub E c d, g'') ∧ GR g' g'') :
    ∃ g', deepAsg E eqT rec ins g a b = some (sub E a b, g') ∧ GR g g' := by
  cases a <;> simp only [Ty.deep?, reduceCtorEq] at hd <;> first | exact ha.elim | skip
  case sizedArr o1 e lo hi =>
    cases b <;> simp only [deepAsg, Ty.arrayType?, checkTo, Ty.operands?, sub] <;> first | exact hb.elim | exact ⟨g, rfl, .refl g⟩ | skip
    rename_i o2 e' lo' hi'
    by_cases hs : lo ≤ lo' ∧ hi' ≤ hi
    · rw [if_pos hs]
      obtain ⟨g'', e1, _⟩ := h e (by simp [parts]) e' (.inl (by simp [parts])) none (.inr rfl)
      exact ⟨g, by rw [e1]; simp [hs.1, hs.2], .refl g⟩
    · rw [if_neg hs]
      refine ⟨g, ?_, .refl g⟩
      have : (decide (lo ≤ lo') && decide (hi' ≤ hi)) = false := by simpa using hs
      rw [this]; rfl
  case sizedMap o1 k v lo hi =>
    have map : ∀ k' v' lo' hi', (k' ∈ parts b ∨ k' = .any) → (v' ∈ parts b ∨ v' = .any) →
        ∃ g', (if lo ≤ lo' ∧ hi' ≤ hi then andG (rec g k k') fun g => rec g v v' else some (false, g)) =
          some (decide (lo ≤ lo') && decide (hi' ≤ hi) && sub E k k' && sub E v v', g') ∧ GR g g' := by
      intro k' v' lo' hi' hk' hv'
      by_cases hs : lo ≤ lo' ∧ hi' ≤ hi
      · rw [if_pos hs]
        obtain ⟨g1, e1, r1⟩ := h k (by simp [parts]) k' hk' g (.inl (.refl g))
        obtain ⟨g2, e2, r2⟩ := h v (by simp [parts]) v' hv' g1 (.inl r1)
        rw [e1]
        cases hk : sub E k k' with
        | false => exact ⟨g1, by simp [andG], r1⟩
        | true => exact ⟨g2, by simp [andG, e2, hs.1, hs.2], r1.trans r2⟩
      · rw [if_neg hs]
        refine ⟨g, ?_, .refl g⟩
        have : (decide (lo ≤ lo') && decide (hi' ≤ hi)) = false := by simpa using hs
        rw [this]; rfl
    cases b <;> simp only [deepAsg, Ty.mapType?, checkTo, Ty.operands?, sub] <;> first | exact hb.elim | exact ⟨g, rfl, .refl g⟩ | skip
    · exact map .any .any 0 maxInt (.inr rfl) (.inr rfl)
    · exact map _ _ _ _ (.inl (by simp [parts])) (.inl (by simp [parts]))
  case sens o1 t =>
    cases b <;> simp only [deepAsg, checkTo, Ty.operands?, sub] <;> first | exact hb.elim | exact ⟨g, rfl, .refl g⟩ | skip
    rename_i o2 u
    exact h t (by simp [parts]) u (.inl (by simp [parts])) g (.inl (.refl g))

theorem asg_sub : ∀ (n : Nat) (a b : Ty), a.depth + b.depth < n → Simple a → Simple b → Tree a → Apart a b → ∀ g, (∀ s, g = some s → Inv2 s a) →
    ∃ g', asg E n g a b = some (sub E a b, g') ∧ GR g g'
  | 0, _, _, h, _, _, _, _, _, _ => by omega
  | n + 1, a, b, hdp, ha, hb, hta, hap, g, hg => by
    rw [asg]
    cases ho : a.deep? with
    | none =>
      dsimp only
      rw [leafAsg_simple ha hb ho]
      exact ⟨g, rfl, .refl g⟩
    | some o =>
      dsimp only
      have kids : ∀ c ∈ parts a, ∀ d, d ∈ parts b ∨ (d = .any) → ∀ g', (∀ s, g' = some s → Inv2 s c) → ∃ g'', asg E n g' c d = some (sub E c d, g'') ∧ GR g' g'' := by
        intro c hc d hd g' hg'
        have hfc := From.part hta hc
        have h1 := part_depth hc
        rcases hd with hd | rfl
        · have h2 := part_depth hd
          exact asg_sub n c d (by omega) (simple_part ha hc) (simple_part hb hd) hfc.tree (hap.sub hfc.sub fun o => part_owns hd) g' hg'
        · refine asg_sub n c .any ?_ (simple_part ha hc) trivial hfc.tree (fun o _ h => ?_) g' hg'
          · simp only [Ty.depth]; omega
          · obtain ⟨o', h, _⟩ := h; simp [Ty.occ] at h
      have kids' : ∀ g0 : G, (∀ c ∈ parts a, ∀ s, g0 = some s → Inv2 s c) → ∀ c ∈ parts a, ∀ d, d ∈ parts b ∨ (d = .any) → ∀ g', GR g0 g' ∨ g' = none →
          ∃ g'', asg E n g' c d = some (sub E c d, g'') ∧ GR g' g'' := by
        intro g0 h0 c hc d hd g' hg'
        refine kids c hc d hd g' ?_
        rcases hg' with h | rfl
        · exact Inv2.of (h0 c hc) h
        · rintro s ⟨⟩
      have sub2 : ∀ s, Inv2 s a → ∀ c ∈ parts a, Inv2 s c := fun s hs c hc =>
        ⟨hs.flag, fun x hx => by obtain ⟨o1, e, h⟩ := hs.inA x hx; exact ⟨o1, e, fun h' => h (part_owns hc h')⟩⟩
      cases ho' : b.deep? with
      | none =>
        dsimp only
        exact deepAsg_simple ha hb ho (kids' g fun c hc s hs => sub2 s (hg s hs) c hc)
      | some o' =>
        dsimp only
        have hne : o ≠ o' := fun h => hap o (owns_deep ho) (h ▸ owns_deep ho')
        rw [if_neg hne]
        have hadd : ∀ s : Guard, Inv2 s a → ∀ c ∈ parts a, Inv2 { s with aSeen := .ty o :: s.aSeen } c := by
          intro s hs c hc
          have hfc := From.part hta hc
          refine ⟨hs.flag, fun x hx => ?_⟩
          rcases List.mem_cons.1 hx with rfl | hx
          · exact ⟨o, rfl, hfc.new o ho⟩
          · obtain ⟨o1, e1, h1⟩ := hs.inA x hx
            exact ⟨o1, e1, fun h => h1 (hfc.sub o1 h)⟩
        cases g with
        | none =>
          obtain ⟨g1, e1, _⟩ := deepAsg_simple (E := E) (eqT := tyEq n []) (rec := asg E n) (ins := inst E n)
            (g := some { aSeen := [.ty o], bSeen := [.ty o'], seenInA := false, seenInB := false }) ha hb ho (kids' _ fun c hc s hs => by
              cases hs
              exact hadd { aSeen := [], bSeen := [.ty o'], seenInA := false, seenInB := false } ⟨rfl, by simp⟩ c hc)
          exact ⟨none, by dsimp only; rw [e1]; rfl, .refl _⟩
        | some s =>
          have hs := hg s rfl
          have hns : s.aSeen.any (Obj.same E (.ty o)) = false := not_any_ty (P := fun o => ¬ a.owns o) hs.inA fun h => h (owns_deep ho)
          have hc1 : (s.append E (.ty o) (.ty o')).2.seenInA = false := by simp [Guard.append, hs.flag, hns]
          have hc2 : (s.append E (.ty o) (.ty o')).2.aSeen = .ty o :: s.aSeen := by simp [Guard.append, hs.flag, hns]
          have hc3 : (s.append E (.ty o) (.ty o')).1.seenInA = false := by simp [Guard.append, hs.flag, hns]
          have hc4 : (s.append E (.ty o) (.ty o')).1.aSeen = s.aSeen := by simp [Guard.append]
          obtain ⟨g1, e1, _⟩ := deepAsg_simple (E := E) (eqT := tyEq n []) (rec := asg E n) (ins := inst E n)
            (g := some (s.append E (.ty o) (.ty o')).2) ha hb ho (kids' _ fun c hc s' hs' => by
              cases hs'
              exact ⟨hc1, by rw [hc2]; exact (hadd s hs c hc).inA⟩)
          refine ⟨some (s.append E (.ty o) (.ty o')).1, ?_, ⟨hc4, by rw [hc3, hs.flag]⟩⟩
          dsimp only
          rw [show (s.append E (.ty o) (.ty o')).2.hit E = false by simp [Guard.hit, hc1], e1]
          rfl

theorem assignable_sub {a b : Ty} (ha : Simple a) (hb : Simple b) (hta : Tree a) (hap : Apart a b) : assignable E a b = sub E a b := by
  obtain ⟨g, e, _⟩ := asg_sub (E := E) (a.depth + b.depth + 3) a b (by omega) ha hb hta hap none (by rintro s ⟨⟩)
  rw [assignable, e]

/-! ## The generic types -/

/-- The types that `genericOf` makes -/
def Gen : Ty → Prop
  | .any | .nilT | .boolT | .intT | .floatT | .strT | .regexpT | .timeT | .mapT | .exact (.bin _) => True
  | .sizedArr _ e _ _ => Gen e
  | .sizedMap _ k v _ _ => Gen k ∧ Gen v
  | .sens _ t => Gen t
  | _ => False

theorem Gen.simple : {t : Ty} → Gen t → Simple t
  | .sizedArr _ e _ _, h => Gen.simple (t := e) h
  | .sizedMap _ k v _ _, h => ⟨Gen.simple (t := k) h.1, Gen.simple (t := v) h.2⟩
  | .sens _ t, h => Gen.simple (t := t) h
  | .any, _ | .nilT, _ | .boolT, _ | .intT, _ | .floatT, _ | .strT, _ | .regexpT, _ | .timeT, _ | .mapT, _ | .exact _, _ => trivial

theorem genAsg_sub : (a b : Ty) → Gen a → Gen b → genAsg a b = sub E a b
  | .sizedArr _ e _ _, b, ha, hb => by
    cases b <;> first | exact hb.elim | skip
    case sizedArr o' e' _ _ => rw [genAsg, sub, genAsg_sub e e' ha hb]
    all_goals simp [genAsg, sub]
  | .sizedMap _ k v _ _, b, ha, hb => by
    cases b <;> first | exact hb.elim | skip
    case sizedMap => rw [genAsg, sub, genAsg_sub k _ ha.1 hb.1, genAsg_sub v _ ha.2 hb.2]
    case mapT => rw [genAsg, sub, genAsg_sub k .any ha.1 trivial, genAsg_sub v .any ha.2 trivial]
    all_goals simp [genAsg, sub]
  | .sens _ t, b, ha, hb => by
    cases b <;> first | exact hb.elim | skip
    case sens o' t' => rw [genAsg, sub, genAsg_sub t t' ha hb]
    all_goals simp [genAsg, sub]
  | .any, b, _, _ => by simp [genAsg, sub, leafCase]
  | .exact (.bin x), b, _, hb => by
    cases b <;> first | exact hb.elim | skip
    case exact v => simp only [genAsg, sub, leafCase]; cases eq (.bin x) v <;> rfl
    all_goals simp [genAsg, sub, leafCase]
  | .nilT, b, _, hb | .boolT, b, _, hb | .intT, b, _, hb | .floatT, b, _, hb | .strT, b, _, hb | .regexpT, b, _, hb | .timeT, b, _, hb
  | .mapT, b, _, hb => by
    cases b <;> first | exact hb.elim | skip
    case exact v => cases v <;> first | exact hb.elim | simp [genAsg, sub, leafCase]
    all_goals simp [genAsg, sub, leafCase]

/-- A generic type, all of whose identities are made from `o` -/
structure GenOf (o : Oid) (t : Ty) : Prop where
  gen : Gen t
  tree : Tree t
  below : ∀ x, t.occ x → Below x o

theorem GenOf.leaf {o : Oid} {t : Ty} (hg : Gen t) (hd : t.deep? = none) (hp : parts t = []) (ho : ∀ x, ¬ t.occ x) : GenOf o t :=
  ⟨hg, .mk (fun o' h => by rw [hd] at h; cases h) (fun c hc => by rw [hp] at hc; cases hc), fun x h => (ho x h).elim⟩

theorem GenOf.any {o : Oid} : GenOf o .any := .leaf trivial rfl rfl (by simp [Ty.occ])

theorem GenOf.common {o : Oid} {ts : List Ty} (h : ∀ t ∈ ts, ∃ k, GenOf (.part o k) t) : ∃ k, GenOf (.part o k) (commonGeneric ts) := by
  unfold commonGeneric
  split
  · exact ⟨0, .any⟩
  · split
    · exact h _ (by simp)
    · exact ⟨0, .any⟩

theorem above_not_part {o x : Oid} {k : Nat} (h : Below x (.part o k)) : ¬ Below o x := fun h' =>
  (below_part_ne h).2 (below_antisymm (below_part_ne h).1 h')

mutual
theorem genericOf_gen (o : Oid) : (v : Val) → GenOf o (genericOf o v)
  | .nil | .bool _ | .int _ | .float _ | .str _ | .bin _ | .time _ | .regexp _ | .entry .. => by
    simp only [genericOf]; exact .leaf trivial rfl rfl (by simp [Ty.occ])
  | .sens v => by
    have h := genericOf_gen (.part o 0) v
    rw [genericOf]
    refine ⟨h.gen, .mk ?_ ?_, ?_⟩
    · intro o' ho c hc x hx
      cases ho
      simp only [parts, List.mem_cons, List.not_mem_nil, or_false] at hc
      subst hc
      exact ⟨above_not_part (h.below x hx), by simp [isTupleStruct]⟩
    · intro c hc
      simp only [parts, List.mem_cons, List.not_mem_nil, or_false] at hc
      subst hc; exact h.tree
    · intro x hx
      rw [Ty.occ] at hx
      rcases hx with rfl | hx
      · exact .refl _
      · exact (below_part_ne (h.below x hx)).1
  | .arr vs => by
    obtain ⟨k, h⟩ := GenOf.common (genericsOf_gen o vs)
    rw [genericOf]
    refine ⟨h.gen, .mk ?_ ?_, ?_⟩
    · intro o' ho c hc x hx
      cases ho
      simp only [parts, List.mem_cons, List.not_mem_nil, or_false] at hc
      subst hc
      exact ⟨above_not_part (h.below x hx), by simp [isTupleStruct]⟩
    · intro c hc
      simp only [parts, List.mem_cons, List.not_mem_nil, or_false] at hc
      subst hc; exact h.tree
    · intro x hx
      rw [Ty.occ] at hx
      rcases hx with rfl | hx
      · exact .refl _
      · exact (below_part_ne (h.below x hx)).1
  | .map es => by
    obtain ⟨k, hk⟩ := GenOf.common (genericKeys_gen o es)
    obtain ⟨l, hv⟩ := GenOf.common (genericVals_gen o es)
    rw [genericOf]
    split
    · exact .leaf trivial rfl rfl (by simp [Ty.occ])
    · refine ⟨⟨hk.gen, hv.gen⟩, .mk ?_ ?_, ?_⟩
      · intro o' ho c hc x hx
        cases ho
        simp only [parts, List.mem_cons, List.not_mem_nil, or_false] at hc
        rcases hc with rfl | rfl
        · exact ⟨above_not_part (hk.below x hx), by simp [isTupleStruct]⟩
        · exact ⟨above_not_part (hv.below x hx), by simp [isTupleStruct]⟩
      · intro c hc
        simp only [parts, List.mem_cons, List.not_mem_nil, or_false] at hc
        rcases hc with rfl | rfl
        · exact hk.tree
        · exact hv.tree
      · intro x hx
        rw [Ty.occ] at hx
        rcases hx with rfl | hx | hx
        · exact .refl _
        · exact (below_part_ne (hk.below x hx)).1
        · exact (below_part_ne (hv.below x hx)).1

theorem genericsOf_gen (o : Oid) : (vs : List Val) → ∀ t ∈ genericsOf o vs, ∃ k, GenOf (.part o k) t
  | [], t, h => by simp [genericsOf] at h
  | v :: vs, t, h => by
    rw [genericsOf] at h
    rcases List.mem_cons.1 h with rfl | h
    · exact ⟨_, genericOf_gen _ v⟩
    · exact genericsOf_gen o vs t h

theorem genericKeys_gen (o : Oid) : (es : List (Val × Val)) → ∀ t ∈ genericKeys o es, ∃ k, GenOf (.part o k) t
  | [], t, h => by simp [genericKeys] at h
  | (k, v) :: r, t, h => by
    rw [genericKeys] at h
    rcases List.mem_cons.1 h with rfl | h
    · exact ⟨_, genericOf_gen _ k⟩
    · exact genericKeys_gen o r t h

theorem genericVals_gen (o : Oid) : (es : List (Val × Val)) → ∀ t ∈ genericVals o es, ∃ k, GenOf (.part o k) t
  | [], t, h => by simp [genericVals] at h
  | (k, v) :: r, t, h => by
    rw [genericVals] at h
    rcases List.mem_cons.1 h with rfl | h
    · exact ⟨_, genericOf_gen _ v⟩
    · exact genericVals_gen o r t h
end

/-- Of types made as parts of different objects, `genAsg` is what `Assignable` computes. -/
theorem asg_generic {p q : Oid} (h : ∀ x, Below x p → ¬ Below x q) (v w : Val) :
    assignable E (genericOf p v) (genericOf q w) = genAsg (genericOf p v) (genericOf q w) := by
  have h1 := genericOf_gen p v
  have h2 := genericOf_gen q w
  rw [genAsg_sub (E := E) _ _ h1.gen h2.gen, assignable_sub h1.gen.simple h2.gen.simple h1.tree]
  rintro o ⟨x, hx, hox⟩ ⟨y, hy, hoy⟩
  exact h o (hox.trans (h1.below x hx)) (hoy.trans (h2.below y hy))

/-! ## Transitivity -/

/-- Integer ranges end above the smallest integer when they exclude the end, there are no NaNs, and no case insensitive string types. -/
def transNode : Ty → Prop
  | .intRange _ max incl => incl = true ∨ max ≠ minI64
  | .floatRange min _ _ => Value.F64.isNaN min = false
  | .ciStr _ => False
  | .sizedMap _ _ _ lo hi => 0 ≤ lo ∧ hi ≤ maxInt
  | _ => True

theorem floatRange_trans {a a' b b' c c' : F64} {i j k : Bool} (hn : Value.F64.isNaN b = false)
    (h1 : (if Value.F64.lt b a then false else if i || i == j then F64.le b' a' else Value.F64.lt b' a') = true)
    (h2 : (if Value.F64.lt c b then false else if j || j == k then F64.le c' b' else Value.F64.lt c' b') = true) :
    (if Value.F64.lt c a then false else if i || i == k then F64.le c' a' else Value.F64.lt c' a') = true := by
  have ite : ∀ p x : Bool, ((if p = true then false else x) = true) ↔ (p = false ∧ x = true) := by decide
  rw [ite] at h1 h2 ⊢
  obtain ⟨h1, h1'⟩ := h1
  obtain ⟨h2, h2'⟩ := h2
  unfold F64.le Value.F64.lt Value.F64.eq at *
  cases i <;> cases j <;> cases k <;>
    simp only [hn, if_true, Bool.false_eq_true, if_false, Bool.or_true, Bool.true_or, Bool.or_false, Bool.false_or, beq_self_eq_true, Bool.or_eq_true, Bool.and_eq_true,
      Bool.not_eq_true', decide_eq_true_eq, beq_iff_eq, Bool.and_eq_false_iff, decide_eq_false_iff_not, Bool.not_eq_false', Bool.false_eq_true, Bool.true_eq_false, beq_eq_false_iff_ne, Bool.not_false] at * <;>
    grind

theorem sub_exact {v : Val} {c : Ty} (h : sub E (.exact v) c = true) : ∃ w, c = .exact w ∧ eq v w = true := by
  cases c <;> simp [sub, leafCase] at h
  case exact w => exact ⟨w, rfl, by cases he : eq v w <;> simp [he] at h ⊢⟩

theorem ite_false_true {p x : Bool} : ((if p = true then false else x) = true) ↔ (p = false ∧ x = true) := by
  cases p <;> cases x <;> decide

theorem getD_false {r : Option Bool} : r.getD false = true ↔ r = some true := by cases r <;> simp

theorem sub_intRange {lo hi : BitVec 64} {k : Bool} {c : Ty} (h : sub E (.intRange lo hi k) c = true) :
    (∃ i, c = .exact (.int i) ∧ lo.sle i = true ∧ (if k then i.sle hi else i.slt hi) = true) ∨
    ∃ lo' hi' k', c = .intRange lo' hi' k' ∧ (if lo'.slt lo then false else (if k' then hi' else hi' - 1).sle (if k then hi else hi - 1)) = true := by
  rw [sub_leaf rfl, getD_false] at h
  cases c <;> simp only [leafCase, reduceCtorEq, Option.some.injEq] at h
  case exact v =>
    cases v <;> simp only [leafCase, reduceCtorEq, Option.some.injEq, Bool.and_eq_true] at h
    exact .inl ⟨_, rfl, h⟩
  case intRange => exact .inr ⟨_, _, _, rfl, h⟩

theorem sub_floatRange {lo hi : F64} {k : Bool} {c : Ty} (h : sub E (.floatRange lo hi k) c = true) :
    (∃ f, c = .exact (.float f) ∧ F64.le lo f = true ∧ (if k then F64.le f hi else Value.F64.lt f hi) = true) ∨
    ∃ lo' hi' k', c = .floatRange lo' hi' k' ∧
      (if Value.F64.lt lo' lo then false else if k || k == k' then F64.le hi' hi else Value.F64.lt hi' hi) = true := by
  rw [sub_leaf rfl, getD_false] at h
  cases c <;> simp only [leafCase, reduceCtorEq, Option.some.injEq] at h
  case exact v =>
    cases v <;> simp only [leafCase, reduceCtorEq, Option.some.injEq, Bool.and_eq_true] at h
    exact .inl ⟨_, rfl, h⟩
  case floatRange => exact .inr ⟨_, _, _, rfl, h⟩

theorem sub_sizedStr {lo hi : Int} {c : Ty} (h : sub E (.sizedStr lo hi) c = true) :
    (∃ s, c = .exact (.str s) ∧ lo ≤ len s ∧ len s ≤ hi) ∨ (∃ s, c = .ciStr s ∧ lo ≤ len s ∧ len s ≤ hi) ∨
    ∃ lo' hi', c = .sizedStr lo' hi' ∧ lo ≤ lo' ∧ hi' ≤ hi := by
  rw [sub_leaf rfl, getD_false] at h
  cases c <;> simp only [leafCase, reduceCtorEq, Option.some.injEq, Bool.and_eq_true, decide_eq_true_eq] at h
  case exact v =>
    cases v <;> simp only [leafCase, reduceCtorEq, Option.some.injEq, Bool.and_eq_true, decide_eq_true_eq] at h
    exact .inl ⟨_, rfl, h⟩
  case ciStr => exact .inr (.inl ⟨_, rfl, h⟩)
  case sizedStr => exact .inr (.inr ⟨_, _, rfl, h⟩)

theorem sub_bin {lo hi : Int} {c : Ty} (h : sub E (.bin lo hi) c = true) :
    (∃ s, c = .exact (.bin s) ∧ lo ≤ len s ∧ len s ≤ hi) ∨ ∃ lo' hi', c = .bin lo' hi' ∧ lo ≤ lo' ∧ hi' ≤ hi := by
  rw [sub_leaf rfl, getD_false] at h
  cases c <;> simp only [leafCase, reduceCtorEq, Option.some.injEq, Bool.and_eq_true, decide_eq_true_eq] at h
  case exact v =>
    cases v <;> simp only [leafCase, reduceCtorEq, Option.some.injEq, Bool.and_eq_true, decide_eq_true_eq] at h
    exact .inl ⟨_, rfl, h⟩
  case bin => exact .inr ⟨_, _, rfl, h⟩

set_option maxHeartbeats 2000000 in
theorem leaf_trans {a b c : Ty} (ha : a.Ok) (hb : b.Ok) (hc : c.Ok) (na : transNode a) (nb : transNode b) (sa : Simple a) (sb : Simple b) (sc : Simple c)
    (h1 : leafCase E (fun _ _ => false) a b = some true) (h2 : sub E b c = true) : leafCase E (fun _ _ => false) a c = some true := by
  unfold leafCase at h1
  split at h1 <;> first
    | (simp only [Option.some.injEq, Bool.false_eq_true, reduceCtorEq] at h1; done)
    | exact nb.elim
    | exact sb.elim
    | exact sa.elim
    | rfl
    | skip
  case h_28 v w =>
    obtain ⟨x, rfl, hx⟩ := sub_exact h2
    have h3 : eq v w = true := by cases he : eq v w <;> simp [he] at h1 ⊢
    simp only [leafCase, laws.trans _ _ _ ha.2 hb.2 hc.2 h3 hx, if_true]
  case h_30 =>
    rcases sub_intRange h2 with ⟨i, rfl, h3, h4⟩ | ⟨lo, hi, k, rfl, h3⟩
    · simp only [Option.some.injEq] at h1
      obtain ⟨h5, h6⟩ := ite_false_true.1 h1
      obtain ⟨h7, h8⟩ := intRange_incl na h5 h6 h3 h4
      simp only [leafCase, h7, h8, Bool.and_self]
    · simp only [Option.some.injEq] at h1
      obtain ⟨h5, h6⟩ := ite_false_true.1 h1
      obtain ⟨h7, h8⟩ := ite_false_true.1 h3
      simp only [leafCase, Option.some.injEq]
      refine ite_false_true.2 ⟨?_, ?_⟩
      · simp only [BitVec.slt_eq_decide, decide_eq_false_iff_not] at h5 h7 ⊢; omega
      · simp only [BitVec.sle_eq_decide, decide_eq_true_eq] at h6 h8 ⊢; omega
  case h_31 =>
    obtain ⟨x, rfl, hx⟩ := sub_exact h2
    obtain ⟨f', rfl, hf⟩ := eq_float hx
    simp only [leafCase]
    rw [← (F64.le_congr hf).1, ← (F64.le_congr hf).2.1, ← (F64.le_congr hf).2.2]
    exact h1
  case h_32 =>
    rcases sub_floatRange h2 with ⟨i, rfl, h3, h4⟩ | ⟨lo, hi, k, rfl, h3⟩
    · simp only [Option.some.injEq] at h1
      obtain ⟨h5, h6⟩ := ite_false_true.1 h1
      obtain ⟨h7, h8⟩ := floatRange_incl na h5 h6 h3 h4
      simp only [leafCase, h7, h8, Bool.and_self]
    · simp only [Option.some.injEq] at h1
      simp only [leafCase, Option.some.injEq]
      exact floatRange_trans nb h1 h3
  case h_35 =>
    simp only [Option.some.injEq, Bool.and_eq_true, decide_eq_true_eq] at h1
    rcases sub_sizedStr h2 with ⟨s, rfl, h3, h4⟩ | ⟨s, rfl, h3, h4⟩ | ⟨lo, hi, rfl, h3, h4⟩ <;> simp [leafCase] <;> omega
  case h_39 =>
    simp only [Option.some.injEq, beq_iff_eq] at h1
    subst h1
    rwa [sub_leaf rfl, getD_false] at h2
  case h_40 =>
    simp only [Option.some.injEq, Bool.and_eq_true, decide_eq_true_eq] at h1
    rcases sub_bin h2 with ⟨s, rfl, h3, h4⟩ | ⟨lo, hi, rfl, h3, h4⟩ <;> simp [leafCase] <;> omega
  all_goals try (obtain ⟨w, rfl, hw⟩ := sub_exact h2)
  all_goals try (have hw := eq_int hw; subst hw)
  all_goals try (have hw := eq_str hw; subst hw)
  all_goals try (have hw := eq_bin hw; subst hw)
  all_goals try (cases w <;> simp [eq] at hw <;> rfl)
  all_goals try exact h1
  all_goals try (cases c <;> simp only [sub, leafCase, Option.getD_some, Option.getD_none, Bool.false_eq_true] at h2 ⊢; done)
  all_goals try (cases c <;> simp only [sub, leafCase, Option.getD_some, Option.getD_none, Bool.false_eq_true] at h2 ⊢; rename_i v; cases v <;> simp only [leafCase, Option.getD_some, Option.getD_none, Bool.false_eq_true] at h2 ⊢)

theorem sub_any {a : Ty} (sa : Simple a) (h : sub E a .any = true) : a = .any := by
  cases a <;> simp [sub, leafCase] at h ⊢

theorem sub_trans : (a b c : Ty) → a.Ok → b.Ok → c.Ok → Every transNode a → Every transNode b → Every transNode c → Simple a → Simple b → Simple c →
    sub E a b = true → sub E b c = true → sub E a c = true
  | a, b, c, ha, hb, hc, na, nb, nc, sa, sb, sc, h1, h2 => by
    cases hd : a.deep? with
    | none =>
      rw [sub_leaf hd, getD_false] at h1 ⊢
      exact leaf_trans ha hb hc na.here nb.here sa sb sc h1 h2
    | some o =>
      cases a <;> simp only [Ty.deep?, reduceCtorEq] at hd <;> first | exact sa.elim | skip
      case sizedArr o1 e lo hi =>
        cases b <;> simp only [sub, Bool.and_eq_true, Bool.false_eq_true, decide_eq_true_eq] at h1
        cases c <;> simp only [sub, Bool.and_eq_true, Bool.false_eq_true, decide_eq_true_eq] at h2
        rename_i e1 _ _ _ e2 _ _
        simp only [sub, Bool.and_eq_true, decide_eq_true_eq]
        refine ⟨⟨by omega, by omega⟩, sub_trans e e1 e2 ha hb hc (na.part (by simp [parts])) (nb.part (by simp [parts])) (nc.part (by simp [parts])) sa sb sc h1.2 h2.2⟩
      case sizedMap o1 k v lo hi =>
        cases b <;> simp only [sub, Bool.and_eq_true, Bool.false_eq_true, decide_eq_true_eq] at h1
        case mapT =>
          have hk := sub_any sa.1 h1.1.2
          have hv := sub_any sa.2 h1.2
          subst hk hv
          cases c <;> simp [sub, leafCase] at h2
          case mapT => simp [sub, leafCase, h1.1.1.1, h1.1.1.2]
          case sizedMap =>
            have h3 := nc.here
            simp only [transNode] at h3
            simp [sub, leafCase]; omega
          case exactD => exact sc.elim
        case sizedMap =>
          cases c <;> simp only [sub, Bool.and_eq_true, Bool.false_eq_true, decide_eq_true_eq] at h2
          case mapT =>
            simp only [sub, Bool.and_eq_true, decide_eq_true_eq]
            exact ⟨⟨⟨by omega, by omega⟩,
              sub_trans k _ _ ha.1 hb.1 trivial (na.part (by simp [parts])) (nb.part (by simp [parts])) (.mk trivial (by simp [parts])) sa.1 sb.1 trivial h1.1.2 h2.1.2⟩,
              sub_trans v _ _ ha.2 hb.2 trivial (na.part (by simp [parts])) (nb.part (by simp [parts])) (.mk trivial (by simp [parts])) sa.2 sb.2 trivial h1.2 h2.2⟩
          case sizedMap =>
            simp only [sub, Bool.and_eq_true, decide_eq_true_eq]
            exact ⟨⟨⟨by omega, by omega⟩,
              sub_trans k _ _ ha.1 hb.1 hc.1 (na.part (by simp [parts])) (nb.part (by simp [parts])) (nc.part (by simp [parts])) sa.1 sb.1 sc.1 h1.1.2 h2.1.2⟩,
              sub_trans v _ _ ha.2 hb.2 hc.2 (na.part (by simp [parts])) (nb.part (by simp [parts])) (nc.part (by simp [parts])) sa.2 sb.2 sc.2 h1.2 h2.2⟩
      case sens o1 t =>
        cases b <;> simp only [sub, Bool.false_eq_true] at h1
        cases c <;> simp only [sub, Bool.false_eq_true] at h2
        rename_i t1 _ t2
        simp only [sub]
        exact sub_trans t t1 t2 ha hb hc (na.part (by simp [parts])) (nb.part (by simp [parts])) (nc.part (by simp [parts])) sa sb sc h1 h2
  termination_by a => a.depth
  decreasing_by all_goals (subst_vars; simp only [Ty.depth]; omega)

end Verif.Types
