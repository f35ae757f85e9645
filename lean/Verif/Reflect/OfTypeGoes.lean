import Verif.Reflect.OfTypeMain
/-!
# Lemmas for C87: what has a place goes there and comes back
-/
set_option autoImplicit false
set_option linter.unusedVariables false
set_option linter.unusedSimpArgs false
set_option linter.unusedSectionVars false
namespace Verif.Reflect
open Verif.Value Verif.Types

variable {E : Types.Env} {R : Env}

theorem takes_goes : ∀ (t : GT) (v : Val), Takes t v → SimpleKeys v → ∃ g, reflectTo R v t = some g := by
  intro t
  induction t with
  | bool => rintro v ⟨b, rfl⟩ _; exact ⟨_, rfl⟩
  | int k => rintro v ⟨rfl, b, rfl⟩ _; exact ⟨_, rfl⟩
  | float32 => intro v h; exact h.elim
  | float64 => rintro v ⟨b, rfl⟩ _; exact ⟨_, rfl⟩
  | string => rintro v ⟨b, rfl⟩ _; exact ⟨_, rfl⟩
  | time => rintro v ⟨b, rfl⟩ _; exact ⟨_, rfl⟩
  | regexp => intro v h; exact h.elim
  | value k =>
    intro v h hs
    rw [Takes] at h
    cases v <;> cases k <;> simp [VK.has] at h <;> exact ⟨_, rfl⟩
  | iface =>
    intro v _ hs
    obtain ⟨t, ht⟩ := goes (E := R) v hs
    exact ht.2.2
  | slice e ih =>
    intro v h hs
    rw [Takes] at h
    rcases h with ⟨rfl, b, rfl⟩ | ⟨hne, vs, rfl, h⟩
    · exact ⟨_, rfl⟩
    rw [SimpleKeys, simpleKeysAll_iff] at hs
    obtain ⟨gs, hg⟩ := all_go fun x hx => ih x (h x hx) (hs x hx)
    refine ⟨.slice e (some gs), ?_⟩
    rw [reflectTo]
    · simp only [target]; rw [hg]; rfl
    · simp
  | map k w ihk ihw =>
    intro v h hs
    rw [Takes] at h
    obtain ⟨hc, es, rfl, h⟩ := h
    rw [SimpleKeys, simpleKeysEntries_iff] at hs
    obtain ⟨gs, hg⟩ := entries_go (k := k) (w := w) (m := []) fun x hx => by
      obtain ⟨g, hg⟩ := ihk x.1 (h x hx).1 (simple_simpleKeys (hs x hx).1)
      refine ⟨⟨g, hg, ?_⟩, ihw x.2 (h x hx).2 (hs x hx).2⟩
      have ht := (typed _ _ _ hg).1
      by_cases hk : k = .iface
      · subst hk; exact simple_iface hg (hs x hx).1
      · exact comparable_hashable (by rw [ht]; exact hc) (by rw [ht]; exact hk)
    refine ⟨.map k w (some gs), ?_⟩
    rw [reflectTo]
    · simp only [target]; rw [hg]; rfl
    · simp
  | ptr e ih =>
    rintro v ⟨rfl, s, rfl⟩ _
    exact ⟨_, rfl⟩

theorem takes_survives : ∀ (t : GT) (v : Val), Takes t v → NoIface t ∨ NoTime v → Survives R t v := by
  intro t
  induction t with
  | bool => rintro v ⟨b, rfl⟩ _; simp [Survives]
  | int k =>
    rintro v ⟨rfl, b, rfl⟩ _
    refine ⟨by simp, ?_⟩
    rintro i ⟨rfl⟩
    have h1 := BitVec.le_two_mul_toInt (x := b)
    have h2 := BitVec.two_mul_toInt_lt (x := b)
    simp only [IK.min, IK.max, IK.signed, IK.bits]
    simp
    omega
  | float32 => intro v h; exact h.elim
  | float64 => rintro v ⟨b, rfl⟩ _; simp [Survives]
  | string => rintro v ⟨b, rfl⟩ _; simp [Survives]
  | time => rintro v ⟨b, rfl⟩ _; simp [Survives]
  | regexp => intro v h; exact h.elim
  | value k => intro v h _; trivial
  | iface =>
    intro v _ h
    rcases h with h | h
    · exact h.elim
    · exact h
  | slice e ih =>
    intro v h hs
    rw [Takes] at h
    rw [Survives]
    rintro vs' rfl
    rcases h with ⟨_, b, hb⟩ | ⟨hne, vs, hv, h⟩
    · cases hb
    cases hv
    refine ⟨hne, fun x hx => ih x (h x hx) ?_⟩
    rcases hs with hs | hs
    · exact .inl hs
    · rw [NoTime, noTimes_iff] at hs; exact .inr (hs x hx)
  | map k w ihk ihw =>
    intro v h hs
    rw [Takes] at h
    obtain ⟨_, es, rfl, h⟩ := h
    rw [Survives]
    rintro es' ⟨rfl⟩ e he
    rcases hs with hs | hs
    · exact ⟨ihk _ (h e he).1 (.inl hs.1), ihw _ (h e he).2 (.inl hs.2)⟩
    · rw [NoTime, noTimeEntries_iff] at hs
      exact ⟨ihk _ (h e he).1 (.inr (hs e he).1), ihw _ (h e he).2 (.inr (hs e he).2)⟩
  | ptr e ih =>
    rintro v ⟨rfl, s, rfl⟩ _
    exact .inr (.inl rfl)

theorem takes_accepts : ∀ (t : GT) (v : Val), Takes t v → Spoken t → Accepts t v := by
  intro t
  induction t with
  | bool => rintro v h _; exact h
  | int k =>
    rintro v ⟨rfl, b, rfl⟩ _
    have h1 := BitVec.le_two_mul_toInt (x := b)
    have h2 := BitVec.two_mul_toInt_lt (x := b)
    refine ⟨b, rfl, ?_⟩
    simp only [lowOf, highOf, IK.min, IK.max, IK.signed, IK.bits]
    simp
    omega
  | float32 => intro v h; exact h.elim
  | float64 => rintro v h _; exact h
  | string => rintro v h _; exact h
  | time => rintro v h _; exact h
  | regexp => intro v h; exact h.elim
  | value k => intro v h hs; exact hs.elim
  | iface => intro v _ _; trivial
  | slice e ih =>
    intro v h hs
    rw [Takes] at h
    rw [Spoken] at hs
    rcases h with ⟨h, _⟩ | ⟨hne, vs, hv, h⟩
    · exact absurd h hs.1
    exact ⟨vs, hv, fun x hx => ih x (h x hx) hs.2⟩
  | map k w ihk ihw =>
    intro v h hs
    rw [Takes] at h
    rw [Spoken] at hs
    obtain ⟨_, es, rfl, h⟩ := h
    exact ⟨es, rfl, fun e he => ⟨ihk _ (h e he).1 hs.1, ihw _ (h e he).2 hs.2⟩⟩
  | ptr e ih =>
    rintro v ⟨rfl, s, rfl⟩ _
    exact ⟨s, rfl⟩

/-! ## When `ReflectType` returns -/

theorem commonT_comparable : ∀ (rs : List RT) (prev : Option GT) (g : GT), commonT prev rs = .of g → (∀ p, prev = some p → p.comparable = true) →
    (∀ r ∈ rs, ∀ t, r = .of t → t.comparable = true) → g.comparable = true
  | [], prev, g, h, hp, _ => by cases h; exact hp g rfl
  | none :: _, prev, g, h, _, _ => by cases prev <;> cases h
  | some none :: r, none, g, h, hp, hr => commonT_comparable r none g h (by simp) fun x hx => hr x (by simp [hx])
  | some none :: r, some _, g, h, _, _ => by cases h
  | some (some t) :: r, none, g, h, hp, hr => by
    refine commonT_comparable r (some t) g h ?_ fun x hx => hr x (by simp [hx])
    rintro p ⟨rfl⟩
    exact hr (some (some t)) (by simp) t rfl
  | some (some t) :: r, some p, g, h, hp, hr => by
    rw [commonT] at h
    split at h
    · exact commonT_comparable r (some p) g h hp fun x hx => hr x (by simp [hx])
    · split at h
      · refine commonT_comparable r (some t) g h ?_ fun x hx => hr x (by simp [hx])
        rintro p ⟨rfl⟩
        exact hr (some (some t)) (by simp) t rfl
      · cases h; rfl

theorem commonT_some : ∀ (rs : List RT) (p : GT), (∀ r ∈ rs, ∃ t, r = .of t) → ∃ g, commonT (some p) rs = .of g
  | [], p, _ => ⟨p, rfl⟩
  | r :: rs, p, h => by
    obtain ⟨t, rfl⟩ := h r (by simp)
    rw [RT.of, commonT]
    split
    · exact commonT_some rs p fun r hr => h r (by simp [hr])
    · split
      · exact commonT_some rs t fun r hr => h r (by simp [hr])
      · exact ⟨_, rfl⟩

theorem commonT_total {rs : List RT} (hn : rs ≠ []) (h : ∀ r ∈ rs, ∃ t, r = .of t) : ∃ g, commonT none rs = .of g := by
  cases rs with
  | nil => exact absurd rfl hn
  | cons r rs =>
    obtain ⟨t, rfl⟩ := h r (by simp)
    rw [RT.of, commonT]
    exact commonT_some rs t fun r hr => h r (by simp [hr])

theorem valRT_total {v : Val} (h : SimpleKeys v) : ∃ t, valRT v = .of t := by
  obtain ⟨t, ht, -⟩ := goes (E := ⟨fun _ => 0, fun _ => 0⟩) v h
  exact ⟨t, by rw [valRT, ht]; rfl⟩

theorem valRT_simple {v : Val} (h : Simple v) : ∃ t, valRT v = .of t ∧ t.comparable = true := by
  obtain ⟨t, ht⟩ := valRT_total (simple_simpleKeys h)
  exact ⟨t, ht, simple_comparable (valRT_of ht) h⟩

theorem common_total {rs : List RT} (hn : rs ≠ []) (h : ∀ r ∈ rs, ∃ t, r = .of t ∧ t.comparable = true) :
    ∃ g, commonT none rs = .of g ∧ g.comparable = true := by
  obtain ⟨g, hg⟩ := commonT_total hn fun r hr => let ⟨t, ht, _⟩ := h r hr; ⟨t, ht⟩
  refine ⟨g, hg, commonT_comparable rs none g hg (by simp) ?_⟩
  rintro r hr t rfl
  obtain ⟨u, hu, hc⟩ := h _ hr
  cases hu
  exact hc

theorem ops_eq (ts : List Ty) : (reflectTypes E ts).map (·.2) = ts.map (reflectType E) := by rw [reflectTypes_eq, List.map_map]; rfl

theorem mapOfT_total {k v : GT} (h : k.comparable = true) : mapOfT (.of k) (.of v) = .of (.map k v) := by
  simp [mapOfT, RT.of, mapOf, h]

mutual
theorem plain_total : ∀ (t : Ty), PlainKey t → ∃ g, reflectType E t = .of g ∧ g.comparable = true
  | .any, _ | .nilT, _ | .not _, _ => ⟨.iface, rfl, rfl⟩
  | .boolT, _ => ⟨_, rfl, rfl⟩
  | .intT, _ | .intRange .., _ => ⟨_, rfl, rfl⟩
  | .floatT, _ | .floatRange .., _ => ⟨_, rfl, rfl⟩
  | .strT, _ | .sizedStr .., _ | .ciStr _, _ | .pattern _, _ => ⟨_, rfl, rfl⟩
  | .bin .., h => by simp [PlainKey] at h
  | .regexpT, _ => ⟨_, rfl, rfl⟩
  | .timeT, _ => ⟨_, rfl, rfl⟩
  | .arrT, h => by simp [PlainKey] at h
  | .mapT, h => by simp [PlainKey] at h
  | .exact v, h => by rw [PlainKey] at h; rw [reflectType]; exact valRT_simple h
  | .exactD _ v, h => by rw [PlainKey] at h; rw [reflectType]; exact valRT_simple h
  | .sens .., _ => ⟨_, rfl, rfl⟩
  | .metaT _, _ | .metaMeta, _ => ⟨_, rfl, rfl⟩
  | .sizedArr .., h => by simp [PlainKey] at h
  | .tuple .., h => by simp [PlainKey] at h
  | .sizedMap .., h => by simp [PlainKey] at h
  | .struct .., h => by simp [PlainKey] at h
  | .allOf _ ts, h => by
    rw [PlainKey] at h; rw [reflectType, ops_eq]
    exact common_total (by simpa using h.1) (by intro r hr; obtain ⟨t, ht, rfl⟩ := List.mem_map.1 hr; exact plain_totals ts h.2 t ht)
  | .anyOf _ ts, h => by
    rw [PlainKey] at h; rw [reflectType, ops_eq]
    exact common_total (by simpa using h.1) (by intro r hr; obtain ⟨t, ht, rfl⟩ := List.mem_map.1 hr; exact plain_totals ts h.2 t ht)
  | .oneOf _ ts, h => by
    rw [PlainKey] at h; rw [reflectType, ops_eq]
    exact common_total (by simpa using h.1) (by intro r hr; obtain ⟨t, ht, rfl⟩ := List.mem_map.1 hr; exact plain_totals ts h.2 t ht)
  | .allOfVal _ vs, h => by
    rw [PlainKey] at h; rw [reflectType]
    exact common_total (by simpa using h.1) (by intro r hr; obtain ⟨t, ht, rfl⟩ := List.mem_map.1 hr; exact valRT_simple (h.2 t ht))

theorem plain_totals : ∀ (ts : List Ty), PlainKeys ts → ∀ t ∈ ts, ∃ g, reflectType E t = .of g ∧ g.comparable = true
  | [], _, t, h => by simp at h
  | t :: ts, c, u, h => by
    rw [PlainKeys] at c
    have h1 := plain_total t c.1
    have h2 := plain_totals ts c.2
    rcases List.mem_cons.1 h with rfl | h
    · exact h1
    · exact h2 u h
end

mutual
theorem keys_total : ∀ (t : Ty), KeysPlain t → ∃ g, reflectType E t = .of g
  | .any, _ | .nilT, _ | .not _, _ => ⟨.iface, rfl⟩
  | .boolT, _ => ⟨_, rfl⟩
  | .intT, _ | .intRange .., _ => ⟨_, rfl⟩
  | .floatT, _ | .floatRange .., _ => ⟨_, rfl⟩
  | .strT, _ | .sizedStr .., _ | .ciStr _, _ | .pattern _, _ => ⟨_, rfl⟩
  | .bin .., h => ⟨_, rfl⟩
  | .regexpT, _ => ⟨_, rfl⟩
  | .timeT, _ => ⟨_, rfl⟩
  | .arrT, h => ⟨_, rfl⟩
  | .mapT, h => ⟨_, rfl⟩
  | .exact v, h => by rw [KeysPlain] at h; rw [reflectType]; exact valRT_total h
  | .exactD _ v, h => by rw [KeysPlain] at h; rw [reflectType]; exact valRT_total h
  | .sens .., _ => ⟨_, rfl⟩
  | .metaT _, _ | .metaMeta, _ => ⟨_, rfl⟩
  | .sizedArr _ e _ _, h => by
    rw [KeysPlain] at h
    obtain ⟨g, hg⟩ := keys_total e h
    exact ⟨.slice g, by rw [reflectType, hg]; rfl⟩
  | .tuple _ ts _, h => by
    rw [KeysPlain] at h
    have ih := keys_totals ts h
    by_cases hts : ts = []
    · subst hts; exact ⟨_, by rw [reflectType]; rfl⟩
    · obtain ⟨g, hg⟩ := commonT_total (rs := (uniqueRT E [] (reflectTypes E ts)).map (·.2))
        (by
          have : reflectTypes E ts ≠ [] := by rw [reflectTypes_eq]; simpa using hts
          simpa using unique_ne (E := E) this)
        (by
          intro r hr
          obtain ⟨u, hu, rfl⟩ := List.mem_map.1 hr
          rcases unique_sub u hu with h | h
          · simp at h
          · rw [reflectTypes_eq] at h
            obtain ⟨t, ht, rfl⟩ := List.mem_map.1 h
            exact ih t ht)
      exact ⟨.slice g, by rw [reflectType, if_neg (by simpa using hts), hg]; rfl⟩
  | .sizedMap _ a b _ _, h => by
    rw [KeysPlain] at h
    obtain ⟨k, hk, hc⟩ := plain_total (E := E) a h.1
    obtain ⟨g, hg⟩ := keys_total b h.2
    exact ⟨_, by rw [reflectType, hk, hg]; exact mapOfT_total hc⟩
  | .struct _ _ fs, h => by
    rw [KeysPlain] at h
    have ih := keys_totalFields fs h
    by_cases hfs : fs = []
    · subst hfs; exact ⟨_, by rw [reflectType]; rfl⟩
    · obtain ⟨k, hk, hc⟩ := common_total (rs := fs.map fun f => valRT f.1) (by simpa using hfs) (by
        intro r hr; obtain ⟨f, hf, rfl⟩ := List.mem_map.1 hr; exact valRT_simple (ih f hf).1)
      obtain ⟨g, hg⟩ := commonT_total (rs := reflectFields E fs) (by rw [reflectFields_eq]; simpa using hfs) (by
        intro r hr; rw [reflectFields_eq] at hr; obtain ⟨f, hf, rfl⟩ := List.mem_map.1 hr; exact (ih f hf).2)
      exact ⟨_, by rw [reflectType, if_neg (by simpa using hfs), hk, hg]; exact mapOfT_total hc⟩
  | .allOf _ ts, h => by
    rw [KeysPlain] at h; rw [reflectType, ops_eq]
    exact commonT_total (by simpa using h.1) (by intro r hr; obtain ⟨t, ht, rfl⟩ := List.mem_map.1 hr; exact keys_totals ts h.2 t ht)
  | .anyOf _ ts, h => by
    rw [KeysPlain] at h; rw [reflectType, ops_eq]
    exact commonT_total (by simpa using h.1) (by intro r hr; obtain ⟨t, ht, rfl⟩ := List.mem_map.1 hr; exact keys_totals ts h.2 t ht)
  | .oneOf _ ts, h => by
    rw [KeysPlain] at h; rw [reflectType, ops_eq]
    exact commonT_total (by simpa using h.1) (by intro r hr; obtain ⟨t, ht, rfl⟩ := List.mem_map.1 hr; exact keys_totals ts h.2 t ht)
  | .allOfVal _ vs, h => by
    rw [KeysPlain] at h; rw [reflectType]
    exact commonT_total (by simpa using h.1) (by intro r hr; obtain ⟨t, ht, rfl⟩ := List.mem_map.1 hr; exact valRT_total (h.2 t ht))

theorem keys_totals : ∀ (ts : List Ty), KeysPlainAll ts → ∀ t ∈ ts, ∃ g, reflectType E t = .of g
  | [], _, t, h => by simp at h
  | t :: ts, c, u, h => by
    rw [KeysPlainAll] at c
    have h1 := keys_total t c.1
    have h2 := keys_totals ts c.2
    rcases List.mem_cons.1 h with rfl | h
    · exact h1
    · exact h2 u h

theorem keys_totalFields : ∀ (fs : List (Val × Bool × Ty)), KeysPlainFields fs → ∀ f ∈ fs, Simple f.1 ∧ ∃ g, reflectType E f.2.2 = .of g
  | [], _, t, h => by simp at h
  | (k, rq, t) :: fs, c, f, h => by
    rw [KeysPlainFields] at c
    have h1 := keys_total t c.2.1
    have h2 := keys_totalFields fs c.2.2
    rcases List.mem_cons.1 h with rfl | h
    · exact ⟨c.1, h1⟩
    · exact h2 f h
end

end Verif.Reflect
