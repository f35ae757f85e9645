import Verif.Reflect.FromTypeSpec
import Verif.Reflect.Total
import Verif.Reflect.Reads
import Verif.Types.InstHas
import Verif.Types.Own
/-!
# Lemmas about the `dgo` type of a Go type
-/
set_option autoImplicit false
set_option linter.unusedVariables false
set_option linter.unusedSimpArgs false
set_option linter.unnecessarySeqFocus false
set_option linter.unusedSectionVars false
namespace Verif.Reflect
open Verif.Value Verif.Types
variable {E : Types.Env} {R : Env}

theorem range_some {lo hi : BitVec 64} (h : lo.toInt < hi.toInt) (hm : lo ≠ minI64) : integerType lo hi true = some (.intRange lo hi true) := by
  have h1 : lo ≠ hi := fun e => by rw [e] at h; omega
  have h2 : hi.slt lo = false := by rw [BitVec.slt]; exact decide_eq_false (by omega)
  simp [integerType, h1, h2, hm]

theorem intTypeOf_some (k : IK) : ∃ T, intTypeOf k = some T ∧ (T = .intT ∧ k.bits = 64 ∧ k.signed = true ∨
    ∃ lo hi, T = .intRange lo hi true ∧ lo.toInt = lowOf k ∧ hi.toInt = highOf k) := by
  cases k <;> simp only [intTypeOf] <;> first
    | exact ⟨_, rfl, .inl ⟨rfl, rfl, rfl⟩⟩
    | exact ⟨_, range_some (by decide) (by decide), .inr ⟨_, _, rfl, by decide, by decide⟩⟩

theorem float32_some : floatType minF32 maxF32 true = some (.floatRange minF32 maxF32 true) := by
  have h1 : Value.F64.eq minF32 maxF32 = false := by decide +kernel
  have h2 : Value.F64.lt maxF32 minF32 = false := by decide +kernel
  have h3 : Value.F64.eq minF32 F64.min = false := by decide +kernel
  simp [floatType, h1, h2, h3]

theorem clamp_max : clampSizes 0 maxInt = (0, maxInt) := by decide

theorem isAny_iff {t : Ty} : t.isAny = true ↔ t = .any := by cases t <;> simp [Ty.isAny]

/-- The type is made, is not its own part, and has the values that `Accepts` says. -/
theorem from_spec : ∀ (t : GT) (o : Oid), ∃ T, typeFromReflected o t = some T ∧ T.Acyc ∧ (∀ i, T.occ i → osize o ≤ osize i) ∧ (T = .any ↔ t = .iface) ∧
    ∀ v, Fits v → (has E T v = true ↔ Accepts t v) := by
  intro t o
  fun_induction typeFromReflected o t with
  | case1 o => exact ⟨_, rfl, trivial, fun i h => h.elim, by simp, fun v _ => by rw [Accepts]; cases v <;> simp [has, hasP]⟩
  | case2 o => exact ⟨_, rfl, trivial, fun i h => h.elim, by simp, fun v _ => by rw [Accepts]; cases v <;> simp [has, hasP]⟩
  | case3 o e ih =>
    obtain ⟨T, h1, h2, h3, h4, h5⟩ := ih
    rw [h1, Option.bind_some]
    have hs : newArrayType o T 0 maxInt = if T.isAny then some .arrT else some (.sizedArr o T 0 maxInt) := by
      simp [newArrayType, clamp_max]
    rw [hs]
    by_cases ha : T = .any
    · refine ⟨.arrT, by rw [if_pos (isAny_iff.2 ha)], trivial, fun i h => h.elim, by simp, fun v hv => ?_⟩
      have := h4.1 ha
      subst this
      rw [Accepts]
      cases v <;> simp [has, hasP, Accepts]
    · refine ⟨.sizedArr o T 0 maxInt, by rw [if_neg (mt isAny_iff.1 ha)], ⟨fun h => ?_, h2⟩, fun i h => ?_, by simp, fun v hv => ?_⟩
      · have := h3 _ h; simp only [osize] at this; omega
      · rcases h with rfl | h
        · exact Nat.le_refl _
        · have := h3 _ h; simp only [osize] at this; omega
      · rw [has_sizedArr, Accepts]
        constructor
        · rintro ⟨vs, rfl, -, -, h⟩
          rw [Fits, FitsAll_iff] at hv
          exact ⟨vs, rfl, fun x hx => (h5 x (hv.2 x hx)).1 (h x hx)⟩
        · rintro ⟨vs, rfl, h⟩
          rw [Fits, FitsAll_iff] at hv
          exact ⟨vs, rfl, by simp [len], hv.1, fun x hx => (h5 x (hv.2 x hx)).2 (h x hx)⟩
  | case4 o k w ihk ihw =>
    obtain ⟨A, a1, a2, a3, a4, a5⟩ := ihk
    obtain ⟨B, b1, b2, b3, b4, b5⟩ := ihw
    rw [a1, Option.bind_some, b1, Option.map_some]
    have hs : newMapType o A B 0 maxInt = if A.isAny ∧ B.isAny then .mapT else .sizedMap o A B 0 maxInt := by
      simp [newMapType, clamp_max]
    rw [hs]
    by_cases ha : A = .any ∧ B = .any
    · refine ⟨.mapT, by rw [if_pos ⟨isAny_iff.2 ha.1, isAny_iff.2 ha.2⟩], trivial, fun i h => h.elim, by simp, fun v hv => ?_⟩
      have := a4.1 ha.1
      have := b4.1 ha.2
      subst k w
      rw [Accepts]
      cases v <;> simp [has, hasP, Accepts]
    · refine ⟨.sizedMap o A B 0 maxInt, by rw [if_neg fun h => ha ⟨isAny_iff.1 h.1, isAny_iff.1 h.2⟩], ⟨fun h => ?_, fun h => ?_, a2, b2⟩,
        fun i h => ?_, by simp, fun v hv => ?_⟩
      · have := a3 _ h; simp only [osize] at this; omega
      · have := b3 _ h; simp only [osize] at this; omega
      · rcases h with rfl | h | h
        · exact Nat.le_refl _
        · have := a3 _ h; simp only [osize] at this; omega
        · have := b3 _ h; simp only [osize] at this; omega
      · rw [has_sizedMap, Accepts]
        constructor
        · rintro ⟨vs, rfl, -, -, h⟩
          rw [Fits, FitsEntries_iff] at hv
          exact ⟨vs, rfl, fun x hx => ⟨(a5 _ (hv.2 x hx).1).1 (h x hx).1, (b5 _ (hv.2 x hx).2).1 (h x hx).2⟩⟩
        · rintro ⟨vs, rfl, h⟩
          rw [Fits, FitsEntries_iff] at hv
          exact ⟨vs, rfl, by simp [len], hv.1, fun x hx => ⟨(a5 _ (hv.2 x hx).1).2 (h x hx).1, (b5 _ (hv.2 x hx).2).2 (h x hx).2⟩⟩
  | case5 o e he ih =>
    obtain ⟨T, h1, h2, h3, h4, h5⟩ := ih
    rw [h1, Option.map_some]
    refine ⟨_, rfl, ?_, fun i h => ?_, by simp [oneOfType], fun v hv => ?_⟩
    · rw [oneOfType, Ty.Acyc, occs_iff]
      · refine ⟨?_, by simp [Acycs, h2, Ty.Acyc]⟩
        rintro ⟨t, ht, h⟩
        rcases List.mem_cons.1 ht with rfl | ht
        · have := h3 _ h; simp only [osize] at this; omega
        · rw [List.mem_singleton] at ht; subst ht; exact h
      · simp
      · simp
    · simp only [oneOfType, Ty.occ, occs] at h
      rcases h with rfl | h | h | h
      · exact Nat.le_refl _
      · have := h3 _ h; simp only [osize] at this; omega
      · exact h.elim
      · exact h.elim
    · rw [Accepts, ← h5 v hv]
      · have hn : has E .nilT v = true ↔ v = .nil := by cases v <;> simp [has, hasP]
        rw [← hn]
        change (hasP E _ (.oneOf o [T, .nilT]) v = true) ↔ _
        simp only [hasP, hasCount]
        change (((if has E T v = true then 1 else 0) + ((if has E .nilT v = true then 1 else 0) + 0)) == 1) = true ↔ _
        cases has E T v <;> cases has E .nilT v <;> simp
      · exact he
  | case6 o => exact ⟨_, rfl, trivial, fun i h => h.elim, by simp, fun v _ => by rw [Accepts]; cases v <;> simp [has, hasP]⟩
  | case7 o k => exact ⟨_, rfl, trivial, fun i h => h.elim, by simp [nativeTy], fun v _ => by rw [Accepts]; cases v <;> simp [has, hasP, nativeTy]⟩
  | case8 o => exact ⟨_, rfl, trivial, fun i h => h.elim, by simp [nativeTy], fun v _ => by rw [Accepts]; cases v <;> simp [has, hasP, nativeTy]⟩
  | case9 o => exact ⟨_, rfl, trivial, fun i h => h.elim, by simp, fun v _ => by rw [Accepts]; cases v <;> simp [has, hasP]⟩
  | case10 o => exact ⟨_, rfl, trivial, fun i h => h.elim, by simp, fun v _ => by rw [Accepts]; cases v <;> simp [has, hasP]⟩
  | case11 o => exact ⟨_, rfl, trivial, fun i h => h.elim, by simp, fun v _ => by rw [Accepts]; cases v <;> simp [has, hasP]⟩
  | case12 o => exact ⟨_, float32_some, trivial, fun i h => h.elim, by simp, fun v _ => by rw [Accepts]; cases v <;> simp [has, hasP]⟩
  | case13 o k =>
    obtain ⟨T, h, hT⟩ := intTypeOf_some k
    refine ⟨T, h, ?_, ?_, ?_, fun v _ => ?_⟩
    · rcases hT with ⟨rfl, -, -⟩ | ⟨lo, hi, rfl, -, -⟩ <;> trivial
    · rcases hT with ⟨rfl, -, -⟩ | ⟨lo, hi, rfl, -, -⟩ <;> exact fun i h => h.elim
    · rcases hT with ⟨rfl, -, -⟩ | ⟨lo, hi, rfl, -, -⟩ <;> simp
    · rw [Accepts]
      rcases hT with ⟨rfl, hb, hs⟩ | ⟨lo, hi, rfl, h1, h2⟩
      · cases v <;> simp [has, hasP]
        rename_i i _
        have := fits64 i
        cases k <;> simp [IK.bits, IK.signed] at hb hs <;> simpa [lowOf, highOf, IK.min, IK.max, IK.bits, IK.signed] using this
      · cases v <;> simp [has, hasP, BitVec.sle, h1, h2]

theorem accepts_nil : ∀ (t : GT), Accepts t .nil ↔ TakesNil t = true := by
  intro t
  induction t with
  | ptr e ih =>
    by_cases he : e = .regexp
    · subst he; simp [Accepts, TakesNil]
    · rw [Accepts, ih]
      · simp [TakesNil, he]
      · exact he
  | _ => simp [Accepts, TakesNil]

theorem accepts_ptr {e : GT} {v : Val} (he : e ≠ .regexp) (hv : v ≠ .nil) : Accepts (.ptr e) v ↔ Accepts e v := by
  rw [Accepts]
  · simp [hv]
  · exact he

/-! ## What is accepted can be put in a variable -/

theorem simpleKeysAll_iff {vs : List Val} : SimpleKeysAll vs ↔ ∀ v ∈ vs, SimpleKeys v := by
  induction vs with
  | nil => simp [SimpleKeysAll]
  | cons v vs ih => simp [SimpleKeysAll, ih]

theorem simpleKeysEntries_iff {es : List (Val × Val)} : SimpleKeysEntries es ↔ ∀ e ∈ es, Simple e.1 ∧ SimpleKeys e.2 := by
  induction es with
  | nil => simp [SimpleKeysEntries]
  | cons e es ih => obtain ⟨k, v⟩ := e; simp [SimpleKeysEntries, ih, and_assoc]

theorem simple_simpleKeys {v : Val} (h : Simple v) : SimpleKeys v := by cases v <;> first | exact h.elim | trivial

/-- A variable of a type that can be compared and is no interface has a hash code. -/
theorem comparable_hashable {g : GV} (h : g.type.comparable = true) (hi : g.type ≠ .iface) : hashable g = true := by
  cases g <;> simp [GV.type, GT.comparable] at h hi ⊢ <;> rfl

theorem simple_iface {v : Val} {g : GV} (h : reflectTo R v .iface = some g) (hs : Simple v) : hashable g = true := by
  cases v <;> first
    | exact hs.elim
    | (simp [reflectTo, boolTo, intTo, floatTo, strTo, timeTo, regexpTo, zero, VK.has] at h; subst h; rfl)

theorem goesPtr {v : Val} {e : GT} {g : GV} (h : reflectTo R v e = some g) (hg : g.type = e) (hn : v ≠ .nil) (hp : Pointed e ∨ e = .time) (hr : e ≠ .regexp) :
    ∃ g, reflectTo R v (.ptr e) = some g := by
  rcases hp with hp | rfl
  · exact ⟨_, to_ptr h hg hn hp hr⟩
  · cases v with
    | time n => exact ⟨_, rfl⟩
    | nil => exact absurd rfl hn
    | arr vs => rw [reflectTo] at h; simp [target] at h; simp
    | map vs => rw [reflectTo] at h; simp [target] at h; simp
    | _ => simp [reflectTo, boolTo, intTo, floatTo, strTo, binTo, regexpTo] at h

theorem accepts_goes : ∀ (t : GT) (v : Val), Accepts t v → Direct t → SimpleKeys v → ∃ g, reflectTo R v t = some g := by
  intro t
  induction t with
  | bool => rintro v ⟨b, rfl⟩ _ _; exact ⟨_, rfl⟩
  | int k => rintro v ⟨b, rfl, _⟩ _ _; exact ⟨_, rfl⟩
  | float32 => rintro v ⟨b, rfl, _⟩ _ _; exact ⟨_, rfl⟩
  | float64 => rintro v ⟨b, rfl⟩ _ _; exact ⟨_, rfl⟩
  | string => rintro v ⟨b, rfl⟩ _ _; exact ⟨_, rfl⟩
  | time => rintro v ⟨b, rfl⟩ _ _; exact ⟨_, rfl⟩
  | regexp => intro v h; exact h.elim
  | value k => intro v h; exact h.elim
  | iface =>
    intro v _ _ hs
    obtain ⟨t, ht⟩ := goes (E := R) v hs
    exact ht.2.2
  | slice e ih =>
    intro v h hd hs
    rw [Accepts] at h
    obtain ⟨vs, rfl, h⟩ := h
    rw [SimpleKeys, simpleKeysAll_iff] at hs
    obtain ⟨gs, hg⟩ := all_go fun x hx => ih x (h x hx) hd (hs x hx)
    refine ⟨.slice e (some gs), ?_⟩
    rw [reflectTo]
    · simp only [target]; rw [hg]; rfl
    · simp
  | map k w ihk ihw =>
    intro v h hd hs
    rw [Accepts] at h
    obtain ⟨es, rfl, h⟩ := h
    rw [SimpleKeys, simpleKeysEntries_iff] at hs
    obtain ⟨gs, hg⟩ := entries_go (k := k) (w := w) (m := []) fun x hx => by
      obtain ⟨g, hg⟩ := ihk x.1 (h x hx).1 hd.2.1 (simple_simpleKeys (hs x hx).1)
      refine ⟨⟨g, hg, ?_⟩, ihw x.2 (h x hx).2 hd.2.2 (hs x hx).2⟩
      have ht := (typed _ _ _ hg).1
      by_cases hk : k = .iface
      · subst hk; exact simple_iface hg (hs x hx).1
      · exact comparable_hashable (by rw [ht]; exact hd.1) (by rw [ht]; exact hk)
    refine ⟨.map k w (some gs), ?_⟩
    rw [reflectTo]
    · simp only [target]; rw [hg]; rfl
    · simp
  | ptr e ih =>
    intro v h hd hs
    by_cases he : e = .regexp
    · subst he
      rw [Accepts] at h
      obtain ⟨s, rfl⟩ := h
      exact ⟨_, rfl⟩
    · by_cases hv : v = .nil
      · subst hv; exact ⟨_, by rw [reflectTo]; simp⟩
      · rw [accepts_ptr he hv] at h
        obtain ⟨g, hg⟩ := ih v h hd.2.2 hs
        refine goesPtr hg (typed _ _ _ hg).1 hv ?_ he
        cases e <;> simp [Pointed, Direct, Accepts] at hd h ⊢

/-! ## What is accepted survives -/

theorem accepts_survives : ∀ (t : GT) (v : Val), Accepts t v → Exact t → NoIface t ∨ NoTime v → Survives R t v := by
  intro t
  induction t with
  | bool => rintro v ⟨b, rfl⟩ _ _; simp [Survives]
  | int k =>
    rintro v ⟨b, rfl, h1, h2⟩ _ _
    refine ⟨by simp, ?_⟩
    rintro i ⟨rfl⟩
    refine ⟨h1, ?_⟩
    unfold highOf at h2
    split at h2 <;> omega
  | float32 => intro v _ h; exact h.elim
  | float64 => rintro v ⟨b, rfl⟩ _ _; simp [Survives]
  | string => rintro v ⟨b, rfl⟩ _ _; simp [Survives]
  | time => rintro v ⟨b, rfl⟩ _ _; simp [Survives]
  | regexp => intro v h; exact h.elim
  | value k => intro v h; exact h.elim
  | iface =>
    intro v _ _ h
    rcases h with h | h
    · exact h.elim
    · exact h
  | slice e ih =>
    intro v h hd hs
    rw [Accepts] at h
    obtain ⟨vs, rfl, h⟩ := h
    rw [Survives]
    rintro vs' ⟨rfl⟩
    refine ⟨hd.1, fun x hx => ih x (h x hx) hd.2 ?_⟩
    rcases hs with hs | hs
    · exact .inl hs
    · rw [NoTime, noTimes_iff] at hs; exact .inr (hs x hx)
  | map k w ihk ihw =>
    intro v h hd hs
    rw [Accepts] at h
    obtain ⟨es, rfl, h⟩ := h
    rw [Survives]
    rintro es' ⟨rfl⟩ e he
    rcases hs with hs | hs
    · exact ⟨ihk _ (h e he).1 hd.1 (.inl hs.1), ihw _ (h e he).2 hd.2 (.inl hs.2)⟩
    · rw [NoTime, noTimeEntries_iff] at hs
      exact ⟨ihk _ (h e he).1 hd.1 (.inr (hs e he).1), ihw _ (h e he).2 hd.2 (.inr (hs e he).2)⟩
  | ptr e ih =>
    intro v h hd hs
    rw [Survives]
    by_cases he : e = .regexp
    · exact .inr (.inl he)
    · by_cases hv : v = .nil
      · exact .inl hv
      · rw [accepts_ptr he hv] at h
        exact .inr (.inr ⟨hd.1, ih v h hd.2 hs⟩)

/-! ## What is read -/

theorem read_nil : ∀ {g : GV} {v : Val}, fromReflected R g = .ok v → (IsNil g = true ↔ v = .nil) := by
  intro g
  fun_induction IsNil g with
  | case1 => intro v h; rw [fromReflected] at h; cases h; simp
  | case2 => intro v h; rw [fromReflected] at h; cases h; simp
  | case3 => intro v h; rw [fromReflected] at h; cases h; simp
  | case4 => intro v h; rw [fromReflected] at h; cases h; simp
  | case5 => intro v h; rw [fromReflected] at h; cases h; simp
  | case6 => intro v h; rw [fromReflected] at h; cases h; simp
  | case7 e g ih =>
    intro v h
    rw [fromReflected] at h
    split at h
    · unfold regexpOf at h
      split at h <;> cases h
      simp [IsNil]
    · split at h
      · cases h
      · exact ih h
  | case8 g ih => intro v h; rw [fromReflected] at h; exact ih h
  | case9 g h1 h2 h3 h4 h5 h6 h7 h8 =>
    intro v h
    simp only [Bool.false_eq_true, false_iff]
    rintro rfl
    cases g with
    | bool => simp [fromReflected] at h
    | int k n => rw [fromReflected, ofInt] at h; split at h <;> cases h
    | float32 => simp [fromReflected] at h
    | float64 => simp [fromReflected] at h
    | string => simp [fromReflected] at h
    | time => simp [fromReflected] at h
    | regexp => simp [fromReflected] at h
    | slice e gs =>
      cases gs with
      | none => exact h1 _ rfl
      | some gs =>
        rw [fromReflected] at h
        split at h
        · cases h
        · obtain ⟨_, _, h⟩ := map_ok h; cases h
    | map k w gs =>
      cases gs with
      | none => exact h2 _ _ rfl
      | some gs =>
        rw [fromReflected] at h
        obtain ⟨_, _, h⟩ := map_ok h; cases h
    | ptr e g => cases g with
      | none => exact h3 _ rfl
      | some g => exact h7 _ _ rfl
    | iface g => cases g with
      | none => exact h4 rfl
      | some g => exact h8 _ rfl
    | value k v => cases v with
      | none => exact h5 _ rfl
      | some v => rw [fromReflected] at h; cases h; exact h6 _ rfl

mutual
theorem read_described : ∀ (g : GV) (v : Val), fromReflected R g = .ok v → Typed g → (Accepts g.type v ↔ Described R g)
  | .bool b, v, h, _ => by rw [fromReflected] at h; cases h; simp [GV.type, Accepts, Described]
  | .float64 b, v, h, _ => by rw [fromReflected] at h; cases h; simp [GV.type, Accepts, Described]
  | .float32 b, v, h, _ => by rw [fromReflected] at h; cases h; simp [GV.type, Accepts, Described]
  | .string b, v, h, _ => by rw [fromReflected] at h; cases h; simp [GV.type, Accepts, Described]
  | .time b, v, h, _ => by rw [fromReflected] at h; cases h; simp [GV.type, Accepts, Described]
  | .regexp b, v, h, _ => by rw [fromReflected] at h; cases h
  | .value k v, w, h, _ => by simp [GV.type, Accepts, Described]
  | .iface none, w, h, _ => by simp [GV.type, Accepts, Described]
  | .iface (some g), w, h, _ => by simp [GV.type, Accepts, Described]
  | .slice e none, v, h, _ => by rw [fromReflected] at h; cases h; simp [GV.type, Accepts, Described]
  | .map k w none, v, h, _ => by rw [fromReflected] at h; cases h; simp [GV.type, Accepts, Described]
  | .ptr e none, v, h, _ => by rw [fromReflected] at h; cases h; rw [GV.type, accepts_nil, Described]
  | .int k n, v, h, ht => by
    rw [fromReflected, ofInt] at h
    split at h
    · cases h
    · cases h
      rw [Typed] at ht
      simp only [GV.type, Accepts, Described]
      constructor
      · rintro ⟨i, hi, h1, h2⟩
        cases hi
        cases k <;> simp [IK.signed, IK.min, IK.max, IK.bits, lowOf, highOf, BitVec.toInt_ofInt, Int.bmod_def] at * <;> omega
      · intro hn
        refine ⟨_, rfl, ?_⟩
        cases k <;> simp [IK.signed, IK.min, IK.max, IK.bits, lowOf, highOf, BitVec.toInt_ofInt, Int.bmod_def] at * <;> omega
  | .slice e (some gs), v, h, ht => by
    rw [fromReflected] at h
    rw [Typed] at ht
    split at h
    · cases h
      rename_i he
      simp [GV.type, Accepts, Described, he]
    · rename_i he
      obtain ⟨vs, h', rfl⟩ := map_ok h
      rw [GV.type, Accepts, Described, ← read_describedAll gs vs _ e h' ht]
      simp [he]
  | .map k w (some es), v, h, ht => by
    rw [fromReflected] at h
    rw [Typed] at ht
    obtain ⟨vs, h', rfl⟩ := map_ok h
    rw [GV.type, Accepts, Described, ← read_describedEntries es vs k w h' ht]
    simp
  | .ptr e (some g), v, h, ht => by
    rw [fromReflected] at h
    rw [Typed] at ht
    rw [GV.type, Described]
    split at h
    · rename_i he
      subst he
      unfold regexpOf at h
      split at h <;> cases h
      simp [Accepts]
    · rename_i he
      split at h
      · cases h
      · have ih := read_described g v h ht.2
        have hn := read_nil h
        simp only [he, false_or]
        split
        · rename_i hg
          rw [hn.1 hg, accepts_nil]
        · rename_i hg
          rw [accepts_ptr he (fun hv => hg (hn.2 hv)), ← ih, ht.1]

theorem read_describedAll : ∀ (gs : List GV) (vs : List Val) (b : Bool) (e : GT), fromAll R b gs = .ok vs → TypedAll e gs →
    ((∀ x ∈ vs, Accepts e x) ↔ DescribedAll R gs)
  | [], vs, b, e, h, _ => by rw [fromAll] at h; cases h; simp [DescribedAll]
  | g :: gs, vs, b, e, h, ht => by
    rw [TypedAll] at ht
    obtain ⟨x, xs, h1, h2, rfl⟩ := fromAll_cons h
    rw [DescribedAll, ← read_describedAll gs xs b e h2 ht.2.2, ← read_described g x h1 ht.2.1, ht.1]
    simp

theorem read_describedEntries : ∀ (es : List (GV × GV)) (xs : List (Val × Val)) (k w : GT), fromEntries R es = .ok xs → TypedEntries k w es →
    ((∀ e ∈ xs, Accepts k e.1 ∧ Accepts w e.2) ↔ DescribedEntries R w es)
  | [], xs, k, w, h, _ => by rw [fromEntries] at h; cases h; simp [DescribedEntries]
  | (a, b) :: es, xs, k, w, h, ht => by
    rw [TypedEntries] at ht
    rw [fromEntries] at h
    obtain ⟨x, hx, h⟩ := bind_ok h
    obtain ⟨y, hy, h⟩ := bind_ok h
    obtain ⟨ys, h', rfl⟩ := map_ok h
    rw [DescribedEntries, ← read_describedEntries es ys k w h' ht.2.2, ← read_described a x hx ht.1.2, ht.1.1]
    have : (if nanKey R a = true then TakesNil w = true else Described R b) ↔ Accepts w y := by
      split at hy
      · rename_i hn
        cases hy
        simp [hn, accepts_nil]
      · rename_i hn
        rw [if_neg hn, ← read_described b y hy ht.2.1.2, ht.2.1.1]
    rw [this]
    simp [and_assoc]
end

end Verif.Reflect
