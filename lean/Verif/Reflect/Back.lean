import Verif.Reflect.Round
/-!
# From Go to `dgo` and back
-/
set_option autoImplicit false
set_option linter.unusedVariables false
set_option linter.unusedSimpArgs false
set_option linter.unnecessarySeqFocus false
set_option linter.unusedSectionVars false
namespace Verif.Reflect
open Verif.Value
variable {E : Env}

theorem wrap_ofInt {k : IK} {n : Int} (h1 : k.min ≤ n) (h2 : n ≤ k.max) : wrap k (BitVec.ofInt 64 n) = n := by
  cases k <;> simp [IK.min, IK.max, IK.signed, IK.bits] at h1 h2 <;>
    simp [wrap, IK.signed, IK.bits, BitVec.toInt_setWidth, BitVec.toNat_setWidth, BitVec.toNat_ofInt, Int.bmod_def] <;> omega

theorem common_some : ∀ (ts : List GT) (p : GT), ∃ e, common (some p) ts = some e
  | [], p => ⟨p, rfl⟩
  | t :: ts, p => by
    rw [common]
    split
    · exact common_some ts p
    · split
      · exact common_some ts t
      · exact ⟨_, rfl⟩

theorem common_same : ∀ {ts : List GT} {p : GT}, (∀ t ∈ ts, t = p) → common (some p) ts = some p
  | [], p, _ => rfl
  | t :: ts, p, h => by
    rw [common, if_pos (by rw [h t (List.mem_cons_self ..)]; simp [GT.assignableTo]), common_same fun x hx => h x (List.mem_cons_of_mem _ hx)]

theorem common_joined {ts : List GT} {e : GT} (hne : ts ≠ []) (hv : ∀ t ∈ ts, t ≠ .value .any) (h : Joined e ts) : common none ts = some e := by
  rw [Joined, if_neg hne] at h
  cases ts with
  | nil => exact absurd rfl hne
  | cons t ts =>
    rw [common]
    rcases h with h | ⟨rfl, a, ha, b, hb, hab⟩
    · rw [h t (List.mem_cons_self ..), common_same fun x hx => h x (List.mem_cons_of_mem _ hx)]
    · obtain ⟨c, hc⟩ := common_some ts t
      have ⟨u1, u2⟩ := common_upper hc
      have hm := common_mem hc
      have up : ∀ x ∈ t :: ts, x.assignableTo c = true := by
        intro x hx
        rcases List.mem_cons.1 hx with rfl | hx
        · exact u2 _ rfl
        · exact u1 _ hx
      have hc' : c ≠ .value .any := by
        rcases hm with h | h | h
        · exact hv _ (List.mem_cons_of_mem _ h)
        · cases h; exact hv _ (List.mem_cons_self ..)
        · rw [h]; simp
      by_cases hi : c = .iface
      · rw [hc, hi]
      · have same : ∀ x ∈ t :: ts, x = c := by
          intro x hx
          have := up x hx
          unfold GT.assignableTo at this
          simp only [Bool.or_eq_true, beq_iff_eq] at this
          rcases this with h | h
          · exact h
          · split at h <;> simp_all
        exact absurd ((same a ha).trans (same b hb).symm) hab

theorem rtype_ne_any {v : Val} {t : GT} (h : rtype v = some t) : t ≠ .value .any := by
  cases v <;> simp only [rtype] at h
  case arr =>
    split at h
    · cases h; simp
    · obtain ⟨_, _, rfl⟩ := Option.map_eq_some_iff.1 h; simp
  case map =>
    split at h
    · cases h; simp
    · simp only [Option.bind_eq_some_iff, mapOf] at h
      obtain ⟨_, _, _, _, _, _, h⟩ := h
      split at h <;> cases h; simp
  all_goals cases h; simp

theorem rtypeEntries_ne : ∀ {es : List (Val × Val)} {ts : List (GT × GT)}, rtypeEntries es = some ts →
    ∀ t ∈ ts, t.1 ≠ .value .any ∧ t.2 ≠ .value .any
  | [], ts, h => by rw [rtypeEntries] at h; cases h; simp
  | (k, v) :: es, ts, h => by
    rw [rtypeEntries] at h
    simp only [Option.bind_eq_some_iff, Option.map_eq_some_iff] at h
    obtain ⟨t, h1, u, h2, ts, h3, rfl⟩ := h
    intro x hx
    rcases List.mem_cons.1 hx with rfl | hx
    · exact ⟨rtype_ne_any h1, rtype_ne_any h2⟩
    · exact rtypeEntries_ne h3 x hx

theorem entries_from : ∀ {es : List (Val × Val)} {ts : List (GT × GT)}, rtypeEntries es = some ts →
    ∀ t ∈ ts, ∃ e ∈ es, rtype e.1 = some t.1
  | [], ts, h => by rw [rtypeEntries] at h; cases h; simp
  | (k, v) :: es, ts, h => by
    rw [rtypeEntries] at h
    simp only [Option.bind_eq_some_iff, Option.map_eq_some_iff] at h
    obtain ⟨t, h1, u, h2, ts, h3, rfl⟩ := h
    intro x hx
    rcases List.mem_cons.1 hx with rfl | hx
    · exact ⟨_, List.mem_cons_self .., h1⟩
    · obtain ⟨e, he, h⟩ := entries_from h3 x hx
      exact ⟨e, List.mem_cons_of_mem _ he, h⟩

/-- What is put in an `interface{}` -/
theorem to_iface {v : Val} {t : GT} {g : GV} (h : reflectTo E v t = some g) (hr : rtype v = some t) (h1 : t ≠ .iface) (h2 : t ≠ .time) :
    reflectTo E v .iface = some (.iface (some g)) := by
  cases v
  case arr vs =>
    obtain ⟨e, rfl, _⟩ := rtype_arr hr
    rw [reflectTo] at h ⊢
    all_goals try simp
    simp only [target, hr, Option.map_some] at h ⊢
    obtain ⟨gs, hg, rfl⟩ := Option.map_eq_some_iff.1 h
    rw [hg]; rfl
  case map es =>
    obtain ⟨k, w, rfl, _⟩ := rtype_map hr
    rw [reflectTo] at h ⊢
    all_goals try simp
    simp only [target, hr, Option.map_some] at h ⊢
    obtain ⟨gs, hg, rfl⟩ := Option.map_eq_some_iff.1 h
    rw [hg]; rfl
  all_goals
    simp only [rtype] at hr
    cases hr
    first
      | exact absurd rfl h1
      | exact absurd rfl h2
      | (simp [reflectTo, boolTo, intTo, floatTo, strTo, binTo, regexpTo, VK.has] at h ⊢; exact h)

/-- What is put behind a pointer -/
theorem to_ptr {v : Val} {t : GT} {g : GV} (h : reflectTo E v t = some g) (hg : g.type = t) (hn : v ≠ .nil) (hp : Pointed t) (hr : t ≠ .regexp):
    reflectTo E v (.ptr t) = some (.ptr t (some g)) := by
  have hv : ∀ k, t ≠ .value k := by intro k hk; subst hk; exact hp
  cases v
  case arr vs =>
    rw [reflectTo] at h ⊢
    all_goals try (first | exact hv | simp)
    cases t <;> simp only [target] at h ⊢ <;> first
      | cases h
      | exact False.elim hp
      | (obtain ⟨gs, hq, rfl⟩ := Option.map_eq_some_iff.1 h; rw [hq]; rfl)
  case map es =>
    rw [reflectTo] at h ⊢
    all_goals try (first | exact hv | simp)
    cases t <;> simp only [target] at h ⊢ <;> first
      | cases h
      | exact False.elim hp
      | (obtain ⟨gs, hq, rfl⟩ := Option.map_eq_some_iff.1 h; rw [hq]; rfl)
  case bin b =>
    cases t <;> simp only [reflectTo, binTo] at h ⊢ <;> first
      | exact False.elim hp
      | cases h
      | skip
    split at h <;> simp_all
  case nil => exact absurd rfl hn
  all_goals
    cases t <;> simp [reflectTo, boolTo, intTo, floatTo, strTo, binTo, timeTo, regexpTo, Pointed] at h hp hr ⊢
    all_goals exact h

theorem dyn_type {g : GV} (h : g.type ≠ .iface) : dyn g = g.type := by
  unfold dyn
  split
  · exact absurd rfl h
  · rfl

theorem fromAll_cons {b : Bool} {g : GV} {gs : List GV} {vs : List Val} (h : fromAll E b (g :: gs) = .ok vs) :
    ∃ v ws, fromReflected E g = .ok v ∧ fromAll E b gs = .ok ws ∧ vs = v :: ws := by
  rw [fromAll] at h
  split at h
  · cases h
  · obtain ⟨v, h1, h⟩ := bind_ok h
    obtain ⟨ws, h2, h⟩ := map_ok h
    split at h1
    · cases h1
    · exact ⟨v, ws, h1, h2, h.symm⟩

theorem fromAll_length {b : Bool} : ∀ {gs : List GV} {vs : List Val}, fromAll E b gs = .ok vs → vs.length = gs.length
  | [], vs, h => by rw [fromAll] at h; cases h; rfl
  | g :: gs, vs, h => by
    obtain ⟨v, ws, _, h2, rfl⟩ := fromAll_cons h
    simp [fromAll_length h2]

theorem fromEntries_length : ∀ {gs : List (GV × GV)} {vs : List (Val × Val)}, fromEntries E gs = .ok vs → vs.length = gs.length
  | [], vs, h => by rw [fromEntries] at h; cases h; rfl
  | (k, v) :: gs, vs, h => by
    obtain ⟨_, _, _, _, _, h2, rfl⟩ := fromEntries_cons h
    simp [fromEntries_length h2]

theorem value_rtype {k : VK} {v : Val} (hk : k ≠ .any) (h : k.has v = true) : rtype v = some (.value k) := by
  cases k <;> cases v <;> simp_all [VK.has, rtype]

mutual
/-- The type that is made for a value that is read from a variable of such a type -/
theorem std_rtype : ∀ (g : GV) (v : Val), Std g → Returns E g → fromReflected E g = .ok v → rtype v = some (dyn g)
  | .bool _, v, hs, hr, h => by rw [fromReflected] at h; cases h; rfl
  | .int k _, v, hs, hr, h => by
    rw [Std] at hs; subst hs
    rw [fromReflected, ofInt] at h
    split at h <;> cases h; rfl
  | .float32 _, v, hs, hr, h => hs.elim
  | .float64 _, v, hs, hr, h => by rw [fromReflected] at h; cases h; rfl
  | .string _, v, hs, hr, h => by rw [fromReflected] at h; cases h; rfl
  | .time _, v, hs, hr, h => by rw [fromReflected] at h; cases h; rfl
  | .regexp _, v, hs, hr, h => hs.elim
  | .slice _ none, v, hs, hr, h => hs.elim
  | .slice e (some gs), v, hs, hr, h => by
    rw [fromReflected] at h
    split at h
    · rename_i he
      cases h
      rw [he]; rfl
    · rename_i he
      obtain ⟨vs, hv, rfl⟩ := map_ok h
      rw [Std] at hs
      obtain ⟨hj, hs⟩ := hs.resolve_left he
      rw [Returns] at hr
      have ht := std_rtypes gs vs _ hs hr.2 hv
      rw [rtype]
      cases gs with
      | nil =>
        have := fromAll_length hv
        cases vs with
        | nil => simp [Joined] at hj; subst hj; rfl
        | cons => simp at this
      | cons g gs =>
        have hl := fromAll_length hv
        rw [if_neg (by cases vs <;> simp at hl ⊢), ht, Option.bind_some, common_joined (by simp) ?_ hj]
        · rfl
        · intro t ht'
          obtain ⟨x, _, hx⟩ := (rtypes_mem ht).2 t ht'
          exact rtype_ne_any hx
  | .map _ _ none, v, hs, hr, h => hs.elim
  | .map k w (some es), v, hs, hr, h => by
    rw [fromReflected] at h
    obtain ⟨vs, hv, rfl⟩ := map_ok h
    rw [Std] at hs
    obtain ⟨j1, j2, hs⟩ := hs
    rw [Returns] at hr
    have ht := std_rtypeEntries es vs hs hr.2.2.2.2 (fun e he => (hr.2.2.1 e he).2) hv
    have hl := fromEntries_length hv
    rw [rtype]
    cases es with
    | nil =>
      cases vs with
      | nil => simp [Joined] at j1 j2; subst j1 j2; rfl
      | cons => simp at hl
    | cons e es =>
      have hm := rtypeEntries_ne ht
      have c1 : common none (((e :: es).map fun e => (dyn e.1, dyn e.2)).map (·.1)) = some k := by
        rw [List.map_map]
        refine common_joined (by simp) ?_ j1
        intro t ht'
        obtain ⟨x, hx, rfl⟩ := List.mem_map.1 ht'
        exact (hm _ (List.mem_map.2 ⟨x, hx, rfl⟩)).1
      have c2 : common none (((e :: es).map fun e => (dyn e.1, dyn e.2)).map (·.2)) = some w := by
        rw [List.map_map]
        refine common_joined (by simp) ?_ j2
        intro t ht'
        obtain ⟨x, hx, rfl⟩ := List.mem_map.1 ht'
        exact (hm _ (List.mem_map.2 ⟨x, hx, rfl⟩)).2
      rw [if_neg (by cases vs <;> simp at hl ⊢), ht, Option.bind_some, c1, Option.bind_some, c2, Option.bind_some, mapOf, if_pos hr.1]
      rfl
  | .ptr _ none, v, hs, hr, h => hs.elim
  | .ptr e (some g), v, hs, hr, h => by
    rw [Std] at hs; subst hs
    rw [fromReflected, if_pos rfl] at h
    unfold regexpOf at h
    split at h <;> cases h; rfl
  | .iface none, v, hs, hr, h => by rw [fromReflected] at h; cases h; rfl
  | .iface (some g), v, hs, hr, h => by
    rw [Std] at hs
    rw [Returns] at hr
    rw [fromReflected] at h
    rw [std_rtype g v hs hr.2.2.2 h, dyn_type hr.1]; rfl
  | .value _ none, v, hs, hr, h => hs.elim
  | .value k (some w), v, hs, hr, h => by
    rw [Std] at hs
    rw [Returns] at hr
    obtain ⟨x, hx, hr⟩ := hr
    rw [fromReflected] at h
    cases hx; cases h
    exact value_rtype hs hr

theorem std_rtypes : ∀ (gs : List GV) (vs : List Val) (b : Bool), StdAll gs → ReturnsAll E gs → fromAll E b gs = .ok vs → rtypes vs = some (gs.map dyn)
  | [], vs, b, hs, hr, h => by rw [fromAll] at h; cases h; rfl
  | g :: gs, vs, b, hs, hr, h => by
    obtain ⟨v, ws, h1, h2, rfl⟩ := fromAll_cons h
    rw [StdAll] at hs
    rw [ReturnsAll] at hr
    rw [rtypes, std_rtype g v hs.1 hr.1 h1, std_rtypes gs ws b hs.2 hr.2 h2]; rfl

theorem std_rtypeEntries : ∀ (gs : List (GV × GV)) (vs : List (Val × Val)), StdEntries gs → ReturnsEntries E gs → (∀ e ∈ gs, nanKey E e.1 = false) →
    fromEntries E gs = .ok vs → rtypeEntries vs = some (gs.map fun e => (dyn e.1, dyn e.2))
  | [], vs, hs, hr, hn, h => by rw [fromEntries] at h; cases h; rfl
  | (a, b) :: gs, vs, hs, hr, hn, h => by
    obtain ⟨x, y, ws, h1, h2, h3, rfl⟩ := fromEntries_cons h
    rw [hn _ (List.mem_cons_self ..), if_neg (by simp)] at h2
    rw [StdEntries] at hs
    rw [ReturnsEntries] at hr
    rw [rtypeEntries, std_rtype a x hs.1 hr.1 h1, std_rtype b y hs.2.1 hr.2.1 h2,
      std_rtypeEntries gs ws hs.2.2 hr.2.2 (fun e he => hn e (List.mem_cons_of_mem _ he)) h3]
    rfl
end

/-- Only nil is read as nil. -/
theorem from_nil {g : GV} (h : fromReflected E g = .ok .nil) (hr : Returns E g) (h1 : ∀ t, g ≠ .slice t none) (h2 : ∀ t u, g ≠ .map t u none)
    (hp : Pointed g.type) : False := by
  cases g <;> simp only [GV.type, Pointed] at hp
  case int => rw [fromReflected, ofInt] at h; split at h <;> cases h
  case regexp => rw [fromReflected] at h; cases h
  case slice e o =>
    cases o with
    | none => exact h1 _ rfl
    | some gs =>
      rw [fromReflected] at h
      split at h
      · cases h
      · obtain ⟨_, _, h⟩ := map_ok h; cases h
  case map k w o =>
    cases o with
    | none => exact h2 _ _ rfl
    | some gs =>
      rw [fromReflected] at h
      obtain ⟨_, _, h⟩ := map_ok h; cases h
  all_goals rw [fromReflected] at h; cases h

theorem bytes_back {gs : List GV} (ht : ∀ g ∈ gs, g.type = .int .uint8) (hr : ReturnsAll E gs) :
    (gs.map byte).map (fun x => GV.int .uint8 (x.toNat : Int)) = gs := by
  induction gs with
  | nil => rfl
  | cons g gs ih =>
    rw [ReturnsAll] at hr
    rw [List.map_cons, List.map_cons, ih (fun x hx => ht x (List.mem_cons_of_mem _ hx)) hr.2]
    have h := ht g (List.mem_cons_self ..)
    cases g <;> simp only [GV.type] at h <;> cases h
    rename_i n
    have := hr.1
    simp [Returns, IK.min, IK.max, IK.signed, IK.bits] at this
    simp only [byte, List.cons.injEq, and_true, GV.int.injEq, true_and]
    rw [UInt8.toNat_ofNat']
    omega

mutual
theorem back : ∀ (g : GV) (v : Val), fromReflected E g = .ok v → Returns E g → reflectTo E v g.type = some g
  | .bool _, v, h, hr => by rw [fromReflected] at h; cases h; rfl
  | .int k n, v, h, hr => by
    rw [Returns] at hr
    rw [fromReflected, ofInt] at h
    split at h <;> cases h
    rw [GV.type, reflectTo, intTo, wrap_ofInt hr.1 hr.2]
    simp
  | .float32 _, v, h, hr => by
    rw [Returns] at hr
    rw [fromReflected] at h; cases h
    simp [GV.type, reflectTo, floatTo, hr]
  | .float64 _, v, h, hr => by rw [fromReflected] at h; cases h; rfl
  | .string _, v, h, hr => by rw [fromReflected] at h; cases h; rfl
  | .time _, v, h, hr => by rw [fromReflected] at h; cases h; rfl
  | .regexp _, v, h, hr => by rw [fromReflected] at h; cases h
  | .slice _ none, v, h, hr => by rw [fromReflected] at h; cases h; rfl
  | .slice e (some gs), v, h, hr => by
    rw [Returns] at hr
    rw [fromReflected] at h
    split at h
    · rename_i he
      cases h
      subst he
      rw [GV.type, reflectTo, binTo, bytes, bytes_back hr.1 hr.2]
      simp
    · obtain ⟨vs, hv, rfl⟩ := map_ok h
      rw [GV.type, reflectTo]
      · simp only [target]
        rw [backAll gs vs e _ hv hr.1 hr.2]; rfl
      · simp
  | .map _ _ none, v, h, hr => by rw [fromReflected] at h; cases h; rfl
  | .map k w (some es), v, h, hr => by
    rw [Returns] at hr
    rw [fromReflected] at h
    obtain ⟨vs, hv, rfl⟩ := map_ok h
    rw [GV.type, reflectTo]
    · simp only [target]
      rw [backEntries es vs k w [] hv hr.2.1 hr.2.2.1 (by simpa using hr.2.2.2.1) hr.2.2.2.2]; rfl
    · simp
  | .ptr _ none, v, h, hr => by rw [fromReflected] at h; cases h; rfl
  | .ptr e (some g), v, h, hr => by
    rw [Returns] at hr
    obtain ⟨ht, hp, n1, n2, hr⟩ := hr
    rw [fromReflected] at h
    split at h
    · rename_i he
      unfold regexpOf at h
      split at h <;> cases h
      subst he; rfl
    · rename_i he
      split at h
      · cases h
      · have := back g v h hr
        rw [ht] at this
        refine to_ptr this ht ?_ hp he
        intro hn
        subst hn
        exact from_nil h hr n1 n2 (by rw [ht]; exact hp)
  | .iface none, v, h, hr => by rw [fromReflected] at h; cases h; rfl
  | .iface (some g), v, h, hr => by
    rw [Returns] at hr
    obtain ⟨h1, h2, hs, hr⟩ := hr
    rw [fromReflected] at h
    have := std_rtype g v hs hr h
    rw [dyn_type h1] at this
    exact to_iface (back g v h hr) this h1 h2
  | .value k o, v, h, hr => by
    rw [Returns] at hr
    obtain ⟨x, rfl, hr⟩ := hr
    rw [fromReflected] at h
    cases h
    cases v <;> simp [GV.type, reflectTo, hr]

theorem backAll : ∀ (gs : List GV) (vs : List Val) (e : GT) (b : Bool), fromAll E b gs = .ok vs → (∀ g ∈ gs, g.type = e) → ReturnsAll E gs →
    reflectAll E vs e = some gs
  | [], vs, e, b, h, ht, hr => by rw [fromAll] at h; cases h; rfl
  | g :: gs, vs, e, b, h, ht, hr => by
    obtain ⟨v, ws, h1, h2, rfl⟩ := fromAll_cons h
    rw [ReturnsAll] at hr
    have := back g v h1 hr.1
    rw [ht g (List.mem_cons_self ..)] at this
    rw [reflectAll, this, backAll gs ws e b h2 (fun x hx => ht x (List.mem_cons_of_mem _ hx)) hr.2]; rfl

theorem backEntries : ∀ (gs : List (GV × GV)) (vs : List (Val × Val)) (k w : GT) (m : List (GV × GV)), fromEntries E gs = .ok vs →
    (∀ e ∈ gs, e.1.type = k ∧ e.2.type = w) → (∀ e ∈ gs, hashable e.1 = true ∧ nanKey E e.1 = false) →
    (m ++ gs).Pairwise (fun a b => keyEq E b.1 a.1 = false) → ReturnsEntries E gs → reflectEntries E vs k w m = some (m ++ gs)
  | [], vs, k, w, m, h, ht, hn, hp, hr => by rw [fromEntries] at h; cases h; simp [reflectEntries]
  | (a, b) :: gs, vs, k, w, m, h, ht, hn, hp, hr => by
    obtain ⟨x, y, ws, h1, h2, h3, rfl⟩ := fromEntries_cons h
    have ⟨n1, n2⟩ := hn _ (List.mem_cons_self ..)
    rw [n2, if_neg (by simp)] at h2
    rw [ReturnsEntries] at hr
    have ⟨t1, t2⟩ := ht _ (List.mem_cons_self ..)
    have r1 := back a x h1 hr.1
    have r2 := back b y h2 hr.2.1
    simp only at t1 t2 n1
    rw [t1] at r1
    rw [t2] at r2
    rw [reflectEntries, r1, Option.bind_some, r2, Option.bind_some, if_pos n1,
      setIndex_new fun e he => (List.pairwise_append.1 hp).2.2 e he (a, b) (List.mem_cons_self ..),
      backEntries gs ws k w _ h3 (fun e he => ht e (List.mem_cons_of_mem _ he)) (fun e he => hn e (List.mem_cons_of_mem _ he))
        (by simpa using hp) hr.2.2]
    simp
end

end Verif.Reflect
