import Verif.Pcore.Good2
/-!
# The types that are made of the arguments: collections
-/
set_option autoImplicit false
set_option linter.unusedVariables false
set_option linter.unusedSimpArgs false
set_option linter.unnecessarySeqFocus false
namespace Verif.Pcore
open Verif.Value (Str Val F64 eq)
open Verif.Types (Ty Oid maxInt instanceOf NilOk NilOks NilOks_iff instanceOf_has has hasP Fits Acycs Acycs_iff occs occs_iff)
open Verif.Text

variable {E : Env} {m k : Nat}

/-! ## Enumerations and patterns -/

theorem enumOf_eq (o : Oid) (ts : List Ty) : enumOf o ts = Types.anyOfType o ts := by
  match ts with
  | [] | [_] | _ :: _ :: _ => rfl

theorem leaves_any {α : Type} {p : Pt} (l : List α) (f : α → Ty) (h : ∀ a, Leafy (f a))
    (hi : ∀ v, Value.WF v → Fits v → ((∃ a ∈ l, instanceOf E.types (f a) v = true) ↔ Den E p v)) :
    Good E p k (Types.anyOfType (.user k) (l.map f)) := by
  obtain ⟨g1, g2, g3⟩ := anyOf_parts (k := k) (ts := l.map f) (by simp; exact fun a _ => (h a).acyc)
    (by simp; exact fun a _ o ho => absurd ho ((h a).occ o)) (by simp; exact fun a _ => (h a).nil)
  refine ⟨g1, g2, g3, fun v hw hf => ?_, ?_⟩
  · rw [Types.C29_any_of g1, ← hi v hw hf]
    simp
  · intro he
    match l with
    | [] => cases he
    | [a] => exact absurd he (h a).ne
    | _ :: _ :: _ => cases he

theorem allSome_strs (ss : List Str) : allSome PV.str? (ss.map fun s => PV.val (.str s)) = some ss := by
  induction ss with
  | nil => rfl
  | cons s ss ih => simp [allSome, PV.str?, ih]

theorem enumArgs_none {ss : List Str} (h : ss ≠ []) : enumArgs (ss.map fun s => PV.val (.str s)) = some (ss, false) := by
  have hs := allSome_strs ss
  unfold enumArgs
  split
  · rename_i h'
    simp at h'
    exact absurd h' h
  · rename_i ci r h'
    have : PV.val (.bool ci) ∈ ss.map fun s => PV.val (.str s) := by
      rw [← List.mem_reverse, h']; exact List.mem_cons_self
    simp at this
  · rw [hs]; rfl

theorem enumArgs_some (ss : List Str) (ci : Bool) : enumArgs ((ss.map fun s => PV.val (.str s)) ++ [PV.val (.bool ci)]) = some (ss, ci) := by
  unfold enumArgs
  rw [List.reverse_append]
  simp only [List.reverse_cons, List.reverse_nil, List.nil_append, List.cons_append, List.reverse_reverse, allSome_strs]
  rfl

theorem good_enumOf {ss : List Str} {ci : Option Bool} (h : ∀ x ∈ ss, ∀ s, E.types.fold (E.lower x) s = E.types.fold x s) :
    Good E (.enum ss ci) k (enumOf (.user k) (ss.map fun s => if (ci == some true) then .ciStr (E.lower s) else .exact (.str s))) := by
  rw [enumOf_eq]
  refine leaves_any ss _ (fun a => by split <;> constructor <;> simp [Ty.Acyc, Ty.occ, NilOk]) fun v _ _ => ?_
  by_cases hc : ci = some true
  · subst hc
    simp only [beq_self_eq_true, if_true, Den]
    constructor
    · rintro ⟨a, ha, hv⟩
      rw [instanceOf_has (by simp [Ty.Acyc])] at hv
      cases v <;> simp [has, hasP] at hv
      rw [h a ha] at hv
      exact ⟨_, rfl, a, ha, hv⟩
    · rintro ⟨s, rfl, a, ha, hv⟩
      refine ⟨a, ha, ?_⟩
      rw [instanceOf_has (by simp [Ty.Acyc])]
      simp [has, hasP, h a ha, hv]
  · have : (ci == some true) = false := by simpa using hc
    simp only [this, Bool.false_eq_true, if_false, hc, Den]
    constructor
    · rintro ⟨a, ha, hv⟩
      rw [instanceOf_has (by simp [Ty.Acyc])] at hv
      cases v <;> simp [has, hasP, eq] at hv
      exact ⟨_, rfl, hv ▸ ha⟩
    · rintro ⟨s, rfl, hs⟩
      refine ⟨s, hs, ?_⟩
      rw [instanceOf_has (by simp [Ty.Acyc])]
      simp [has, hasP, eq]

theorem allSome_rx (E : Env) (rs : List Str) : allSome (PV.regexp? E) (rs.map fun s => PV.val (.regexp s)) = some rs := by
  induction rs with
  | nil => rfl
  | cons s ss ih => simp [allSome, PV.regexp?, ih]

theorem good_pattern {rs : List Str} (h : rs ≠ []) :
    ∃ t, patternType E (.user k) (rs.map fun s => PV.val (.regexp s)) = some t ∧ Good E (.pattern rs) k t := by
  refine ⟨_, ?_, leaves_any (p := .pattern rs) rs .pattern (fun a => by constructor <;> simp [Ty.Acyc, Ty.occ, NilOk]) fun v _ _ => ?_⟩
  · rw [patternType, if_neg (by simpa using h), allSome_rx]
    rfl
  · simp only [Den]
    constructor
    · rintro ⟨a, ha, hv⟩
      rw [instanceOf_has (by simp [Ty.Acyc])] at hv
      cases v <;> simp [has, hasP] at hv
      exact ⟨_, rfl, a, ha, hv⟩
    · rintro ⟨s, rfl, a, ha, hv⟩
      refine ⟨a, ha, ?_⟩
      rw [instanceOf_has (by simp [Ty.Acyc])]
      simp [has, hasP, hv]

/-! ## Arrays and hashes -/

theorem newArray_some {o : Oid} {e : Ty} (h : e ≠ .nilT) (lo hi : Int) : ∃ t, Types.newArrayType o e lo hi = some t := by
  cases hc : Types.newArrayType o e lo hi with
  | some t => exact ⟨t, rfl⟩
  | none => exact absurd ((Types.C30_array_panics o e lo hi).1 hc).1 h

theorem newArray_parts {e t : Ty} {lo hi : Int} (h : Types.newArrayType (.user k) e lo hi = some t) (ha : e.Acyc)
    (ho : ∀ o, e.occ o → k < base o) : t.Acyc ∧ (∀ o, t.occ o → k ≤ base o) ∧ NilOk t ∧ t ≠ .nilT := by
  unfold Types.newArrayType at h
  generalize Types.clampSizes lo hi = c at h
  dsimp only at h
  by_cases h1 : c.1 = 0 ∧ c.2 = maxInt ∧ e.isAny = true
  · rw [if_pos h1] at h; cases h; simp [Ty.Acyc, Ty.occ, NilOk]
  · rw [if_neg h1] at h
    by_cases h2 : c.1 = 1 ∧ c.1 = c.2 ∧ e.isExact = true
    · rw [if_pos h2] at h
      split at h
      · cases h; simp [Ty.Acyc, Ty.occ, NilOk, base]
      · cases h
    · rw [if_neg h2] at h
      cases h
      refine ⟨⟨fun hc => ?_, ha⟩, ?_, by simp [NilOk], by simp⟩
      · have := ho _ hc; simp only [base] at this; omega
      · rintro o (rfl | hc)
        · exact Nat.le_refl _
        · exact Nat.le_of_lt (ho _ hc)

theorem fits_mem {vs : List Val} (h : Fits (.arr vs)) : ∀ x ∈ vs, Fits x := Types.FitsAll_iff.1 h.2

theorem good_newArray {p : Pt} {e : Pt} {t : Ty} {l : Lim} {lo hi : Int} (g : Good E e m t) (hk : k < m) (hu : e.onlyUndef = false)
    (hs : ∀ n : Nat, (n : Int) ≤ maxInt → (Types.InSize lo hi n ↔ l.holds n)) :
    ∃ u, Types.newArrayType (.user k) t lo hi = some u ∧ Good E (.array e l) k u := by
  obtain ⟨u, hu'⟩ := newArray_some (o := .user k) (e := t) (fun hn => by rw [g.undef hn] at hu; cases hu) lo hi
  obtain ⟨h1, h2, h3, h4⟩ := newArray_parts hu' g.acyc fun o ho => Nat.lt_of_lt_of_le hk (g.over o ho)
  refine ⟨u, hu', h1, h2, h3, fun v hw hf => ?_, fun hn => absurd hn h4⟩
  rw [Types.C30_array hu' g.acyc (g.fresh hk) hf]
  simp only [Den]
  constructor
  · rintro ⟨vs, rfl, h1, h2⟩
    exact ⟨vs, rfl, (hs _ hf.1).1 h1, fun x hx => (g.inst x ((Value.WFs_iff vs).1 hw x hx) (fits_mem hf x hx)).1 (h2 x hx)⟩
  · rintro ⟨vs, rfl, h1, h2⟩
    exact ⟨vs, rfl, (hs _ hf.1).2 h1, fun x hx => (g.inst x ((Value.WFs_iff vs).1 hw x hx) (fits_mem hf x hx)).2 (h2 x hx)⟩

theorem good_newArrayAny {l : Lim} {lo hi : Int} (hs : ∀ n : Nat, (n : Int) ≤ maxInt → (Types.InSize lo hi n ↔ l.holds n)) :
    ∃ u, Types.newArrayType (.user k) .any lo hi = some u ∧ Good E (.arrayAny l) k u := by
  obtain ⟨u, h, g⟩ := good_newArray (p := .any) (k := k) (good_any (E := E) (m := k + 1)) (by omega) rfl hs
  refine ⟨u, h, g.acyc, g.over, g.nil, fun v hw hf => ?_, ?_⟩
  · rw [g.inst v hw hf]; simp [Den]
  · intro he; have := g.undef he; simp [Pt.onlyUndef] at this

theorem good_newMap {kp vp : Pt} {kt vt : Ty} {m' : Nat} {l : Lim} {lo hi : Int} (gk : Good E kp m kt) (hk : k < m) (gv : Good E vp m' vt) (hk' : k < m')
    (hs : ∀ n : Nat, (n : Int) ≤ maxInt → (Types.InSize lo hi n ↔ l.holds n)) :
    Good E (.hash kp vp l) k (Types.newMapType (.user k) kt vt lo hi) := by
  have hp : (Types.newMapType (.user k) kt vt lo hi).Acyc ∧ (∀ o, (Types.newMapType (.user k) kt vt lo hi).occ o → k ≤ base o) ∧
      NilOk (Types.newMapType (.user k) kt vt lo hi) ∧ Types.newMapType (.user k) kt vt lo hi ≠ .nilT := by
    unfold Types.newMapType
    generalize Types.clampSizes lo hi = c
    dsimp only
    by_cases h1 : c.1 = 0 ∧ c.2 = maxInt ∧ kt.isAny = true ∧ vt.isAny = true
    · rw [if_pos h1]; simp [Ty.Acyc, Ty.occ, NilOk]
    · rw [if_neg h1]
      refine ⟨⟨gk.fresh hk, gv.fresh hk', gk.acyc, gv.acyc⟩, ?_, by simp [NilOk], by simp⟩
      rintro o (rfl | ho | ho)
      · exact Nat.le_refl _
      · exact Nat.le_of_lt (Nat.lt_of_lt_of_le hk (gk.over o ho))
      · exact Nat.le_of_lt (Nat.lt_of_lt_of_le hk' (gv.over o ho))
  obtain ⟨h1, h2, h3, h4⟩ := hp
  refine ⟨h1, h2, h3, fun v hw hf => ?_, fun hn => absurd hn h4⟩
  rw [Types.C30_map gk.acyc gv.acyc (gk.fresh hk) (gv.fresh hk') hf]
  simp only [Den]
  have each : ∀ es, v = .map es → ((∀ e ∈ es, instanceOf E.types kt e.1 = true ∧ instanceOf E.types vt e.2 = true) ↔ ∀ x ∈ es, Den E kp x.1 ∧ Den E vp x.2) := by
    rintro es rfl
    have w := (Value.WFes_iff es).1 hw.1
    have f := Types.FitsEntries_iff.1 hf.2
    exact forall₂_congr fun x hx => and_congr (gk.inst _ (w x hx).1 (f x hx).1) (gv.inst _ (w x hx).2 (f x hx).2)
  constructor
  · rintro ⟨es, rfl, h1, h2⟩
    exact ⟨es, rfl, (hs _ hf.1).1 h1, (each es rfl).1 h2⟩
  · rintro ⟨es, rfl, h1, h2⟩
    exact ⟨es, rfl, (hs _ hf.1).2 h1, (each es rfl).2 h2⟩

theorem good_newMapAny {l : Lim} {lo hi : Int} (hs : ∀ n : Nat, (n : Int) ≤ maxInt → (Types.InSize lo hi n ↔ l.holds n)) :
    Good E (.hashAny l) k (Types.newMapType (.user k) .any .any lo hi) := by
  have g := good_newMap (k := k) (good_any (E := E) (m := k + 1)) (by omega) (good_any (E := E) (m := k + 1)) (by omega) hs
  refine ⟨g.acyc, g.over, g.nil, fun v hw hf => ?_, ?_⟩
  · rw [g.inst v hw hf]; simp [Den]
  · intro he; have := g.undef he; simp [Pt.onlyUndef] at this

/-! ## Wrappers -/

theorem good_sensitive {p : Pt} {t : Ty} (g : Good E p m t) (hk : k < m) : Good E (.sensitive p) k (.sens (.user k) t) := by
  have ha : (Ty.sens (.user k) t).Acyc := ⟨g.fresh hk, g.acyc⟩
  refine ⟨ha, ?_, by simp [NilOk], fun v hw hf => ?_, by simp⟩
  · rintro o (rfl | ho)
    · exact Nat.le_refl _
    · exact Nat.le_of_lt (Nat.lt_of_lt_of_le hk (g.over o ho))
  · rw [instanceOf_has ha, Types.has_sens]
    simp only [Den]
    constructor
    · rintro ⟨x, rfl, h⟩; rw [← instanceOf_has g.acyc] at h; exact ⟨x, rfl, (g.inst x hw hf).1 h⟩
    · rintro ⟨x, rfl, h⟩; rw [← g.inst x hw hf, instanceOf_has g.acyc] at h; exact ⟨x, rfl, h⟩

theorem good_sensitiveAny : Good E .sensitiveAny k (.sens (.user k) .any) := by
  have g := good_sensitive (k := k) (good_any (E := E) (m := k + 1)) (by omega)
  refine ⟨g.acyc, g.over, g.nil, fun v hw hf => ?_, by simp⟩
  rw [g.inst v hw hf]; simp [Den]

theorem good_type {p : Pt} {t : Ty} (g : Good E p m t) (hk : k < m) : Good E (.type p) k (.metaT t) := by
  refine ⟨g.acyc, fun o ho => Nat.le_of_lt (Nat.lt_of_lt_of_le hk (g.over o ho)), by simp [NilOk], fun v hw hf => ?_, by simp⟩
  rw [instanceOf_has (t := .metaT t) g.acyc]
  cases v <;> simp [has, hasP, Den]

theorem good_typeAny : Good E .typeAny k (.metaT .any) := by
  have g := good_type (k := k) (good_any (E := E) (m := k + 1)) (by omega)
  refine ⟨g.acyc, g.over, g.nil, fun v hw hf => ?_, by simp⟩
  rw [g.inst v hw hf]; simp [Den]

theorem Good.nil_iff {p : Pt} {t : Ty} (g : Good E p m t) : Types.assignable E.types t .nilT = true ↔ Den E p .nil := by
  rw [Types.assignable_nil g.nil g.acyc]
  exact g.inst .nil trivial trivial

theorem good_opt {p : Pt} {t : Ty} (g : Good E p m t) (hk : k < m) : Good E (.optional p) k (optionalType.opt E (.user k) t) := by
  unfold optionalType.opt
  split
  · rename_i h
    have h := g.nil_iff.1 h
    refine ⟨g.acyc, fun o ho => Nat.le_of_lt (Nat.lt_of_lt_of_le hk (g.over o ho)), g.nil, fun v hw hf => ?_, g.undef⟩
    rw [g.inst v hw hf]
    simp only [Den]
    exact ⟨Or.inr, fun h' => h'.elim (fun e => by rw [e]; exact h) id⟩
  · refine any_two (q := p) (by simp [Ty.Acyc]) (by simp [Ty.occ]) (by simp [NilOk]) g.acyc
      (fun o ho => Nat.lt_of_lt_of_le hk (g.over o ho)) g.nil fun v hw hf => ?_
    rw [g.inst v hw hf, (good_undef (E := E) (m := 0)).inst v hw hf]
    simp only [Den]

theorem good_optionalVal (s : Str) : Good E (.optionalVal s) k (optionalType.opt E (.user k) (.exact (.str s))) := by
  have g := good_opt (k := k) (good_stringVal (E := E) (m := k + 1) s) (by omega)
  refine ⟨g.acyc, g.over, g.nil, fun v hw hf => ?_, ?_⟩
  · rw [g.inst v hw hf]; simp [Den]
  · intro h; have := g.undef h; simp [Pt.onlyUndef] at this

theorem opt_str (s : Str) : optionalType.opt E (.user k) (.exact (.str s)) = .anyOf (.user k) [.nilT, .exact (.str s)] := by
  unfold optionalType.opt
  split
  · rename_i h
    have := (good_stringVal (E := E) (m := 0) s).nil_iff.1 h
    cases this
  · rfl

theorem leafy_notNil : Leafy (Types.notType .nilT) := by constructor <;> simp [Types.notType, Ty.Acyc, Ty.occ, NilOk]

theorem inst_notNil (v : Val) : instanceOf E.types (Types.notType .nilT) v = true ↔ v ≠ .nil := by
  rw [instanceOf_has leafy_notNil.acyc, Types.notType]
  · rw [Types.has_not]; cases v <;> simp [has, hasP]
  · simp

theorem good_notUndefAny : Good E .notUndefAny m (Types.notType .nilT) := leafy_notNil.good fun v _ _ => inst_notNil v

theorem good_notUndef {p : Pt} {t : Ty} (g : Good E p m t) (hk : k < m) :
    ∃ u, notUndefType E (.user k) [.ty t] = some u ∧ Good E (.notUndef p) k u := by
  unfold notUndefType
  dsimp only
  by_cases ha : t.isAny = true
  · rw [if_pos ha]
    refine ⟨_, rfl, leafy_notNil.good fun v hw hf => ?_⟩
    have : t = .any := by cases t <;> first | rfl | cases ha
    subst this
    have := g.inst v hw hf
    rw [inst_notNil]
    simp only [Den]
    rw [instanceOf_has (by simp [Ty.Acyc])] at this
    simp [has, hasP] at this
    simp [this]
  · rw [if_neg ha]
    by_cases hn : Types.assignable E.types t .nilT = true
    · rw [if_pos hn]
      have hac : (Ty.allOf (.user k) [Types.notType .nilT, t]).Acyc := by
        refine ⟨?_, leafy_notNil.acyc, g.acyc, trivial⟩
        rintro (h | h | h)
        · exact leafy_notNil.occ _ h
        · exact g.fresh hk h
        · exact h
      refine ⟨_, rfl, hac, ?_, ⟨leafy_notNil.nil, g.nil, trivial⟩, fun v hw hf => ?_, by simp [Types.allOfType]⟩
      · rintro o (rfl | h | h | h)
        · exact Nat.le_refl _
        · exact absurd h (leafy_notNil.occ _)
        · exact Nat.le_of_lt (Nat.lt_of_lt_of_le hk (g.over o h))
        · exact h.elim
      · rw [Types.C29_all_of (o := .user k) (ts := [Types.notType .nilT, t]) hac]
        simp only [List.forall_mem_cons, Den, inst_notNil, g.inst v hw hf]
        simp
    · rw [if_neg hn]
      rw [g.nil_iff] at hn
      refine ⟨_, rfl, g.acyc, fun o ho => Nat.le_of_lt (Nat.lt_of_lt_of_le hk (g.over o ho)), g.nil, fun v hw hf => ?_, ?_⟩
      · rw [g.inst v hw hf]
        simp only [Den]
        exact ⟨fun h => ⟨fun e => hn (by rw [← e]; exact h), h⟩, And.right⟩
      · rintro rfl
        exact absurd ((g.inst .nil trivial trivial).1 (by rw [instanceOf_has (by simp [Ty.Acyc])]; simp [has, hasP])) hn

/-! ## Tuples and structs -/

theorem exact_value {t : Ty} (h : t.isExact = true) (hn : t ≠ .nilT) : ∃ v, t.exactValue = some v := by
  cases t <;> simp [Ty.isExact] at h <;> simp [Ty.exactValue] at hn ⊢

theorem exact_values : ∀ {ts : List Ty}, (∀ t ∈ ts, t.isExact = true) → (∀ t ∈ ts, t ≠ .nilT) → ∃ vs, Types.exactValues ts = some vs
  | [], _, _ => ⟨[], rfl⟩
  | t :: ts, h, hn => by
    obtain ⟨v, e⟩ := exact_value (h t (by simp)) (hn t (by simp))
    obtain ⟨vs, e'⟩ := exact_values (ts := ts) (fun t ht => h t (by simp [ht])) (fun t ht => hn t (by simp [ht]))
    exact ⟨v :: vs, by simp [Types.exactValues, e, e']⟩

theorem each_ne_nil {ps : List Pt} {ts : List Ty} (h : List.Forall₂ (fun p t => ∃ m, k < m ∧ Good E p m t) ps ts)
    (hu : ∀ p ∈ ps, p.onlyUndef = false) : ∀ t ∈ ts, t ≠ .nilT := by
  induction h with
  | nil => simp
  | cons h _ ih =>
    obtain ⟨m, hm, g⟩ := h
    simp only [List.forall_mem_cons] at hu ⊢
    exact ⟨fun he => by rw [g.undef he] at hu; exact absurd hu.1 (by simp), ih hu.2⟩

theorem occs_fresh {ts : List Ty} (h : ∀ t ∈ ts, ∀ o, t.occ o → k < base o) : ¬ occs (.user k) ts := by
  intro ho
  obtain ⟨t, ht, ho⟩ := occs_iff.1 ho
  have := h t ht _ ho
  simp only [base] at this
  omega

theorem good_tuple {ps : List Pt} {ts : List Ty} (h : List.Forall₂ (fun p t => ∃ m, k < m ∧ Good E p m t) ps ts) (hne : ps ≠ [])
    (hu : ∀ p ∈ ps, p.onlyUndef = false) : ∃ u, Types.newTupleType (.user k) ts false = some u ∧ Good E (.tuple ps) k u := by
  obtain ⟨h1, h2, h3⟩ := each_good h
  have hn := each_ne_nil h hu
  have hl : ts.length ≠ 0 := by rw [← h.length_eq]; simpa using hne
  obtain ⟨u, e, hp⟩ : ∃ u, Types.newTupleType (.user k) ts false = some u ∧ u.Acyc ∧ (∀ o, u.occ o → k ≤ base o) ∧ NilOk u ∧ u ≠ .nilT := by
    unfold Types.newTupleType
    rw [if_neg hl, if_neg (by simp)]
    by_cases hx : ts.all Ty.isExact = true
    · obtain ⟨vs, e⟩ := exact_values (List.all_eq_true.1 hx) hn
      rw [hx, e]
      exact ⟨_, rfl, by simp [Ty.Acyc], by simp [Ty.occ, base], by simp [NilOk], by simp⟩
    · rw [if_neg (by simpa using hx)]
      refine ⟨_, rfl, ⟨occs_fresh h2, Acycs_iff.2 h1⟩, ?_, by simp [NilOk], by simp⟩
      rintro o (rfl | ho)
      · exact Nat.le_refl _
      · obtain ⟨t, ht, ho⟩ := occs_iff.1 ho
        exact Nat.le_of_lt (h2 t ht o ho)
  refine ⟨u, e, hp.1, hp.2.1, hp.2.2.1, fun v hw hf => ?_, fun he => absurd he hp.2.2.2⟩
  rw [Types.C31_tuple e (Acycs_iff.2 h1) (occs_fresh h2)]
  simp only [Den]
  have key : ∀ {ps : List Pt} {ts : List Ty}, List.Forall₂ (fun p t => ∃ m, k < m ∧ Good E p m t) ps ts → ∀ vs : List Val, (∀ x ∈ vs, Value.WF x ∧ Fits x) →
      (List.Forall₂ (fun t x => instanceOf E.types t x = true) ts vs ↔ DenEach E ps vs) := by
    intro ps ts h
    induction h with
    | nil => intro vs _; cases vs <;> simp [DenEach]
    | cons h _ ih =>
      obtain ⟨m, hm, g⟩ := h
      intro vs hv
      cases vs with
      | nil => simp [DenEach]
      | cons x vs =>
        rw [List.forall₂_cons, g.inst x (hv x (by simp)).1 (hv x (by simp)).2, ih vs fun y hy => hv y (by simp [hy])]
        simp only [DenEach, List.cons.injEq]
        constructor
        · rintro ⟨a, b⟩; exact ⟨x, vs, ⟨rfl, rfl⟩, a, b⟩
        · rintro ⟨y, r, ⟨rfl, rfl⟩, a, b⟩; exact ⟨a, b⟩
  constructor
  · rintro ⟨vs, rfl, hv⟩
    exact ⟨vs, rfl, (key h vs fun x hx => ⟨(Value.WFs_iff vs).1 hw x hx, fits_mem hf x hx⟩).1 hv⟩
  · rintro ⟨vs, rfl, hv⟩
    exact ⟨vs, rfl, (key h vs fun x hx => ⟨(Value.WFs_iff vs).1 hw x hx, fits_mem hf x hx⟩).2 hv⟩

theorem good_tupleAny : Good E .tupleAny k (.tuple (.user k) [.any] true) := by
  have e : Types.variadicTupleType (.user k) ([] ++ [Ty.any]) = some (.tuple (.user k) [.any] true) := by
    simp [Types.variadicTupleType, Types.newTupleType, Ty.isAny]
  have ha : (Ty.tuple (.user k) [.any] true).Acyc := by simp [Ty.Acyc, occs, Ty.occ, Acycs]
  refine ⟨ha, by simp [Ty.occ, occs, base], by simp [NilOk], fun v hw hf => ?_, by simp⟩
  rw [Types.C31_variadic e (by simp [Acycs, Ty.Acyc]) (by simp [occs, Ty.occ])]
  simp only [Den]
  constructor
  · rintro ⟨vs, ws, rfl, _⟩; exact ⟨_, rfl⟩
  · rintro ⟨vs, rfl⟩
    refine ⟨[], vs, rfl, .nil, fun x _ => ?_⟩
    rw [instanceOf_has (by simp [Ty.Acyc])]; simp [has, hasP]

theorem lookup_str {es : List (Val × Val)} (hd : Types.DistinctKeys es) (s : Str) (x : Val) :
    Types.lookupV es (.str s) = some x ↔ (Val.str s, x) ∈ es := by
  induction es with
  | nil => simp [Types.lookupV]
  | cons e es ih =>
    obtain ⟨a, b⟩ := e
    obtain ⟨h1, h2⟩ := List.pairwise_cons.1 hd
    have ih := ih h2
    have heq : eq (.str s) a = true ↔ a = .str s := by
      cases a <;> simp [eq]
      exact eq_comm
    unfold Types.lookupV at ih ⊢
    by_cases h : a = .str s
    · subst h
      simp only [List.find?_cons, heq.2 rfl, Option.map_some, Option.some.injEq, List.mem_cons, Prod.mk.injEq, true_and]
      constructor
      · rintro rfl; exact Or.inl rfl
      · rintro (rfl | h)
        · rfl
        · have := h1 _ h
          simp [eq] at this
    · have : eq (.str s) a = false := by
        cases hc : eq (.str s) a with
        | false => rfl
        | true => exact absurd (heq.1 hc) h
      simp only [List.find?_cons, this, List.mem_cons, Prod.mk.injEq]
      rw [ih]
      constructor
      · exact Or.inr
      · rintro (⟨rfl, _⟩ | h')
        · exact absurd rfl h
        · exact h'

/-- The fields that are made of the entries -/
def FieldOf (E : Env) (k : Nat) (f : Str × Bool × Pt) (g : Val × Bool × Ty) : Prop :=
  g.1 = .str f.1 ∧ g.2.1 = !f.2.1 ∧ ∃ m, k < m ∧ Good E f.2.2 m g.2.2

theorem field_facts {fs : List (Str × Bool × Pt)} {gs : List (Val × Bool × Ty)} (h : List.Forall₂ (FieldOf E k) fs gs) :
    (∀ g ∈ gs, Value.WF g.1) ∧ (∀ g ∈ gs, g.2.2.Acyc) ∧ (∀ g ∈ gs, ∀ o, g.2.2.occ o → k < base o) ∧
    gs.map (·.1) = fs.map (fun f => Val.str f.1) := by
  induction h with
  | nil => simp
  | @cons f g _ _ h _ ih =>
    obtain ⟨e, e2, m, hm, gd⟩ := h
    simp only [List.forall_mem_cons, List.map_cons, e, ih.2.2.2]
    exact ⟨⟨trivial, ih.1⟩, ⟨gd.acyc, ih.2.1⟩, ⟨fun o ho => Nat.lt_of_lt_of_le hm (gd.over o ho), ih.2.2.1⟩, trivial⟩

theorem fields_ne_nil {fs : List (Str × Bool × Pt)} {gs : List (Val × Bool × Ty)} (h : List.Forall₂ (FieldOf E k) fs gs)
    (hu : ∀ f ∈ fs, f.2.2.onlyUndef = false) : ∀ t ∈ gs.map (·.2.2), t ≠ .nilT := by
  induction h with
  | nil => simp
  | cons h _ ih =>
    obtain ⟨e, e2, m, hm, g⟩ := h
    simp only [List.forall_mem_cons, List.map_cons] at hu ⊢
    exact ⟨fun he => by rw [g.undef he] at hu; exact absurd hu.1 (by simp), ih hu.2⟩

theorem distinct_str {fs : List (Str × Bool × Pt)} {gs : List (Val × Bool × Ty)} (h : gs.map (·.1) = fs.map (fun f => Val.str f.1))
    (hd : (fs.map (·.1)).Nodup) : Types.DistinctKeys gs := by
  have h1 : (gs.map (·.1)).Pairwise fun a b => eq a b = false := by
    rw [h]
    unfold List.Nodup at hd
    rw [List.pairwise_map] at hd ⊢
    exact hd.imp fun {a b} hab => by simp [eq, hab]
  unfold Types.DistinctKeys
  rwa [List.pairwise_map] at h1

theorem good_struct {fs : List (Str × Bool × Pt)} {gs : List (Val × Bool × Ty)} (h : List.Forall₂ (FieldOf E k) fs gs)
    (hd : (fs.map (·.1)).Nodup) (hu : ∀ f ∈ fs, f.2.2.onlyUndef = false) :
    ∃ u, Types.structMapType (.user k) false gs = some u ∧ Good E (.struct fs) k u := by
  obtain ⟨h1, h2, h3, h4⟩ := field_facts h
  have hn := fields_ne_nil h hu
  have hdk := distinct_str h4 hd
  have ho : ¬ Types.occFields (.user k) gs := by
    intro ho
    obtain ⟨g, hg, ho⟩ := Types.occFields_iff.1 ho
    have := h3 g hg _ ho
    simp only [base] at this
    omega
  obtain ⟨u, e, hp⟩ : ∃ u, Types.structMapType (.user k) false gs = some u ∧ u.Acyc ∧ (∀ o, u.occ o → k ≤ base o) ∧ NilOk u ∧ u ≠ .nilT := by
    unfold Types.structMapType
    by_cases hx : (!false && gs.all fun f => f.2.1 && f.2.2.isExact) = true
    · rw [if_pos hx]
      obtain ⟨vs, e⟩ := exact_values (ts := gs.map (·.2.2)) (by
        intro t ht
        obtain ⟨g, hg, rfl⟩ := List.mem_map.1 ht
        simp only [Bool.not_false, Bool.true_and, List.all_eq_true, Bool.and_eq_true] at hx
        exact (hx g hg).2) hn
      rw [e]
      exact ⟨_, rfl, by simp [Ty.Acyc], by simp [Ty.occ, base], by simp [NilOk], by simp⟩
    · rw [if_neg hx]
      refine ⟨_, rfl, ⟨ho, Types.AcycFields_iff.2 h2⟩, ?_, by simp [NilOk], by simp⟩
      rintro o (hb | hf)
      · have : ∀ {a b : Oid}, Types.Below a b → base a = base b := by
          intro a b h
          induction h with
          | refl => rfl
          | part k _ ih => exact ih
        rw [this hb]
        exact Nat.le_refl _
      · obtain ⟨g, hg, ho⟩ := Types.occFields_iff.1 hf
        exact Nat.le_of_lt (h3 g hg o ho)
  refine ⟨u, e, hp.1, hp.2.1, hp.2.2.1, fun v hw hf => ?_, fun he => absurd he hp.2.2.2⟩
  rw [Types.C32_instance_partial e h1 hdk (Types.AcycFields_iff.2 h2) ho hw]
  simp only [Den]
  refine exists_congr fun es => and_congr_right ?_
  rintro rfl
  have w := (Value.WFes_iff es).1 hw.1
  have f := Types.FitsEntries_iff.1 hf.2
  unfold Types.Matches
  have keys : (false = false → ∀ e ∈ es, ∃ f ∈ gs, eq f.1 e.1 = true) ↔ ∀ e ∈ es, ∃ s, e.1 = .str s ∧ s ∈ fs.map (·.1) := by
    simp only [forall_const]
    refine forall₂_congr fun e he => ?_
    have : (∃ f ∈ gs, eq f.1 e.1 = true) ↔ ∃ a ∈ gs.map (·.1), eq a e.1 = true := by simp
    rw [this, h4]
    constructor
    · rintro ⟨a, ha, he⟩
      obtain ⟨f, hf, rfl⟩ := List.mem_map.1 ha
      refine ⟨f.1, ?_, List.mem_map.2 ⟨f, hf, rfl⟩⟩
      generalize e.1 = x at he
      cases x <;> simp [eq] at he
      rw [he]
    · rintro ⟨s, hs, hm⟩
      obtain ⟨f, hf, rfl⟩ := List.mem_map.1 hm
      exact ⟨.str f.1, List.mem_map.2 ⟨f, hf, rfl⟩, by rw [hs]; simp [eq]⟩
  rw [keys, ← and_assoc]
  refine and_congr_left' ?_
  clear keys ho e hp h1 h2 h3 h4 hn hdk hd hu
  induction h with
  | nil => simp [DenFields]
  | @cons f g fs gs h _ ih =>
    obtain ⟨e, e2, m, hm, gd⟩ := h
    obtain ⟨s, opt, p⟩ := f
    obtain ⟨key, rq, t⟩ := g
    dsimp only at e e2 gd
    subst e e2
    simp only [List.forall_mem_cons, DenFields, lookup_str hw.2] at ih ⊢
    have hden : (∀ x, (Val.str s, x) ∈ es → instanceOf E.types t x = true) ↔ ∀ x, (Val.str s, x) ∈ es → Den E p x :=
      forall₂_congr fun x hx => gd.inst x (w _ hx).2 (f _ hx).2
    rw [hden]
    have hreq : ((!opt) = true → ∃ x, (Val.str s, x) ∈ es) ↔ ((opt = true ∧ ¬ ∃ x, (Val.str s, x) ∈ es) ∨ ∃ x, (Val.str s, x) ∈ es) := by
      cases opt
      · simp
      · by_cases h : ∃ x, (Val.str s, x) ∈ es <;> simp [h]
    rw [hreq]
    constructor
    · rintro ⟨⟨a, b⟩, c, d⟩; exact ⟨a, c, ih.1 ⟨b, d⟩⟩
    · rintro ⟨a, c, d⟩; exact ⟨⟨a, (ih.2 d).1⟩, c, (ih.2 d).2⟩

theorem good_structAny : ∃ t, Types.structMapType (.user k) true [] = some t ∧ Good E .structAny k t := by
  have e : Types.structMapType (.user k) true [] = some (.struct (.user k) true []) := by simp [Types.structMapType]
  refine ⟨_, e, by simp [Ty.Acyc, Types.occFields, Types.AcycFields], ?_, by simp [NilOk], fun v hw hf => ?_, by simp⟩
  · rintro o (hb | hf)
    · have : ∀ {a b : Oid}, Types.Below a b → base a = base b := by
        intro a b h
        induction h with
        | refl => rfl
        | part k _ ih => exact ih
      rw [this hb]
      exact Nat.le_refl _
    · exact hf.elim
  · rw [Types.C32_instance_partial e (by simp) List.Pairwise.nil (by simp [Types.AcycFields]) (by simp [Types.occFields]) hw]
    simp [Types.Matches, Den]

end Verif.Pcore
