import Verif.Reflect.Back
/-!
# What `ReflectTo` makes has the right type, and when it makes something
-/
set_option autoImplicit false
set_option linter.unusedVariables false
set_option linter.unusedSimpArgs false
set_option linter.unnecessarySeqFocus false
set_option linter.unusedSectionVars false
namespace Verif.Reflect
open Verif.Value
variable {E : Env}

theorem wrap_range (k : IK) (i : BitVec 64) : k.min ≤ wrap k i ∧ wrap k i ≤ k.max := by
  have := fits64 i
  simp [IK.min, IK.max, IK.signed, IK.bits] at this
  cases k <;> simp [IK.min, IK.max, IK.signed, IK.bits, wrap, BitVec.toInt_setWidth, BitVec.toNat_setWidth, Int.bmod_def] <;> omega

theorem zero_typed (t : GT) : (zero t).type = t ∧ Typed (zero t) := by
  cases t <;> simp [zero, GV.type, Typed]
  rename_i k
  cases k <;> simp [IK.min, IK.max, IK.signed, IK.bits]

theorem typedAll_iff {e : GT} (gs : List GV) : TypedAll e gs ↔ ∀ g ∈ gs, g.type = e ∧ Typed g := by
  induction gs with
  | nil => simp [TypedAll]
  | cons g gs ih => simp [TypedAll, ih, and_assoc]

theorem typedEntries_iff {k w : GT} (es : List (GV × GV)) : TypedEntries k w es ↔ ∀ e ∈ es, (e.1.type = k ∧ Typed e.1) ∧ e.2.type = w ∧ Typed e.2 := by
  induction es with
  | nil => simp [TypedEntries]
  | cons e es ih => obtain ⟨a, b⟩ := e; simp only [TypedEntries, ih, List.forall_mem_cons, and_assoc]

theorem typed_setIndex {k w : GT} {a b : GV} : ∀ {m : List (GV × GV)}, TypedEntries k w m → (a.type = k ∧ Typed a) → (b.type = w ∧ Typed b) →
    TypedEntries k w (setIndex E a b m)
  | [], _, ha, hb => by rw [setIndex, TypedEntries]; exact ⟨ha, hb, by rw [TypedEntries]; trivial⟩
  | (x, y) :: m, hm, ha, hb => by
    rw [TypedEntries] at hm
    rw [setIndex]
    split
    · rw [TypedEntries]; exact ⟨hm.1, hb, hm.2.2⟩
    · rw [TypedEntries]; exact ⟨hm.1, hm.2.1, typed_setIndex hm.2.2 ha hb⟩

theorem typed_value {v : Val} {k : VK} {g : GV} (h : reflectTo E v (.value k) = some g) : g.type = .value k ∧ Typed g := by
  cases v <;> rw [reflectTo] at h <;> split at h <;> cases h <;> rename_i hk <;> exact ⟨rfl, hk⟩

theorem bytes_typed (b : List UInt8) : Typed (bytes b) := by
  rw [bytes, Typed, typedAll_iff]
  intro g hg
  obtain ⟨x, _, rfl⟩ := List.mem_map.1 hg
  have := x.toNat_lt
  simp [GV.type, Typed, IK.min, IK.max, IK.signed, IK.bits]
  omega

/-- Into what the slice or map is put -/
theorem put_typed {rt : Option GT} {t u : GT} {i : Into} {g : GV} (h : target rt t = some (u, i)) (hu : u ≠ .iface) (hg : g.type = u ∧ Typed g) :
    (i.put g).type = t ∧ Typed (i.put g) := by
  unfold target at h
  split at h
  · cases h
  · cases h
    exact ⟨by rw [Into.put, GV.type, hg.1], by rw [Into.put, Typed]; exact ⟨rfl, hg.2⟩⟩
  · obtain ⟨w, _, h⟩ := Option.map_eq_some_iff.1 h
    cases h
    exact ⟨rfl, by rw [Into.put, Typed]; exact ⟨by rw [hg.1]; exact hu, hg.2⟩⟩
  · cases h; exact hg

mutual
theorem typed : ∀ (v : Val) (t : GT) (g : GV), reflectTo E v t = some g → g.type = t ∧ Typed g
  | .arr vs, t, g, h => by
    rcases isValue t with ⟨k, rfl⟩ | ht
    · exact typed_value h
    rw [reflectTo] at h
    split at h
    · rename_i e i ht
      obtain ⟨gs, hg, rfl⟩ := Option.map_eq_some_iff.1 h
      exact put_typed ht (by simp) ⟨rfl, by rw [Typed]; exact typedAll vs e gs hg⟩
    · cases h
    · exact ht
  | .map es, t, g, h => by
    rcases isValue t with ⟨k, rfl⟩ | ht
    · exact typed_value h
    rw [reflectTo] at h
    split at h
    · rename_i k w i ht
      obtain ⟨gs, hg, rfl⟩ := Option.map_eq_some_iff.1 h
      exact put_typed ht (by simp) ⟨rfl, by rw [Typed]; exact typedEntries es k w [] gs hg (by rw [TypedEntries]; trivial)⟩
    · cases h
    · exact ht
  | .nil, t, g, h => by
    rcases isValue t with ⟨k, rfl⟩ | ht
    · exact typed_value h
    rw [reflectTo] at h
    · cases h; exact zero_typed t
    · exact ht
  | .bool b, t, g, h => by
    rcases isValue t with ⟨k, rfl⟩ | ht
    · exact typed_value h
    rw [reflectTo] at h
    · unfold boolTo at h; split at h <;> cases h <;> simp [GV.type, Typed]
    · exact ht
  | .int i, t, g, h => by
    rcases isValue t with ⟨k, rfl⟩ | ht
    · exact typed_value h
    rw [reflectTo] at h
    · unfold intTo at h
      split at h <;> cases h <;> simp only [GV.type, Typed] <;> simp [wrap_range]
    · exact ht
  | .float f, t, g, h => by
    rcases isValue t with ⟨k, rfl⟩ | ht
    · exact typed_value h
    rw [reflectTo] at h
    · unfold floatTo at h; split at h <;> cases h <;> simp [GV.type, Typed]
    · exact ht
  | .str s, t, g, h => by
    rcases isValue t with ⟨k, rfl⟩ | ht
    · exact typed_value h
    rw [reflectTo] at h
    · unfold strTo at h; split at h <;> cases h <;> simp [GV.type, Typed]
    · exact ht
  | .bin b, t, g, h => by
    rcases isValue t with ⟨k, rfl⟩ | ht
    · exact typed_value h
    rw [reflectTo] at h
    · have hb := bytes_typed b
      have ht' : (bytes b).type = .slice (.int .uint8) := rfl
      unfold binTo at h; split at h <;> cases h
      · exact ⟨rfl, by rw [Typed]; exact ⟨ht', hb⟩⟩
      · exact ⟨ht', hb⟩
      · exact ⟨rfl, by rw [Typed, ht']; exact ⟨by simp, hb⟩⟩
    · exact ht
  | .time ns, t, g, h => by
    rcases isValue t with ⟨k, rfl⟩ | ht
    · exact typed_value h
    rw [reflectTo] at h
    · unfold timeTo at h; split at h <;> cases h <;> simp [GV.type, Typed]
    · exact ht
  | .regexp s, t, g, h => by
    rcases isValue t with ⟨k, rfl⟩ | ht
    · exact typed_value h
    rw [reflectTo] at h
    · unfold regexpTo at h; split at h <;> cases h <;> simp [GV.type, Typed]
    · exact ht
  | .sens v, t, g, h => by
    cases t <;> simp [reflectTo] at h
    · subst h; simp [GV.type, Typed, VK.has]
    · obtain ⟨h1, rfl⟩ := h; exact ⟨rfl, h1⟩
  | .entry k v, t, g, h => by
    cases t <;> simp [reflectTo] at h
    · subst h; simp [GV.type, Typed, VK.has]
    · obtain ⟨h1, rfl⟩ := h; exact ⟨rfl, h1⟩

theorem typedAll : ∀ (vs : List Val) (t : GT) (gs : List GV), reflectAll E vs t = some gs → TypedAll t gs
  | [], t, gs, h => by rw [reflectAll] at h; cases h; rw [TypedAll]; trivial
  | v :: vs, t, gs, h => by
    rw [reflectAll] at h
    simp only [Option.bind_eq_some_iff, Option.map_eq_some_iff] at h
    obtain ⟨g, hg, rs, hr, rfl⟩ := h
    have := typed v t g hg
    rw [TypedAll]
    exact ⟨this.1, this.2, typedAll vs t rs hr⟩

theorem typedEntries : ∀ (es : List (Val × Val)) (k w : GT) (m gs : List (GV × GV)), reflectEntries E es k w m = some gs → TypedEntries k w m →
    TypedEntries k w gs
  | [], k, w, m, gs, h, hm => by rw [reflectEntries] at h; cases h; exact hm
  | (a, b) :: es, k, w, m, gs, h, hm => by
    rw [reflectEntries] at h
    simp only [Option.bind_eq_some_iff] at h
    obtain ⟨ga, ha, gb, hb, h⟩ := h
    split at h
    · exact typedEntries es k w _ gs h (typed_setIndex hm (typed a k ga ha) (typed b w gb hb))
    · cases h
end

/-! ## Conversion to the own type and to `interface{}` -/

/-- It can be put in a variable of the type that is made for it, and in an `interface{}`. -/
def Goes (E : Env) (v : Val) (t : GT) : Prop :=
  rtype v = some t ∧ (∃ g, reflectTo E v t = some g) ∧ ∃ g, reflectTo E v .iface = some g

theorem goes_up {v : Val} {t e : GT} (h : Goes E v t) (ha : t.assignableTo e = true) (he : e ≠ .value .any) : ∃ g, reflectTo E v e = some g := by
  unfold GT.assignableTo at ha
  simp only [Bool.or_eq_true, beq_iff_eq] at ha
  rcases ha with rfl | ha
  · exact h.2.1
  · split at ha
    · exact h.2.2
    · exact absurd rfl he
    · cases ha

theorem common_ne_any {ts : List GT} {e : GT} (h : common none ts = some e) (hv : ∀ t ∈ ts, t ≠ .value .any) : e ≠ .value .any := by
  rcases common_mem h with h | h | h
  · exact hv _ h
  · cases h
  · rw [h]; simp

theorem common_cons (t : GT) (ts : List GT) : ∃ e, common none (t :: ts) = some e := common_some ts t

theorem simple_comparable {v : Val} {t : GT} (h : rtype v = some t) (hs : Simple v) : t.comparable = true := by
  cases v <;> simp only [rtype] at h <;> first | (cases h; rfl) | exact hs.elim

theorem simple_hashable {v : Val} {t : GT} {g : GV} (h : reflectTo E v t = some g) (hs : Simple v) (ht : (∃ u, rtype v = some u ∧ u.assignableTo t = true)) :
    hashable g = true := by
  obtain ⟨u, hu, ha⟩ := ht
  have key : t = u ∨ t = .iface ∨ t = .value .any := by
    unfold GT.assignableTo at ha
    simp only [Bool.or_eq_true, beq_iff_eq] at ha
    rcases ha with rfl | ha
    · exact .inl rfl
    · split at ha
      · exact .inr (.inl rfl)
      · exact .inr (.inr rfl)
      · cases ha
  rcases key with rfl | rfl | rfl
  · cases v <;> simp only [rtype] at hu <;> first
      | exact hs.elim
      | (cases hu; simp [reflectTo, boolTo, intTo, floatTo, strTo, timeTo, regexpTo, zero, VK.has] at h; subst h; rfl)
  · cases v <;> first
      | exact hs.elim
      | (simp [reflectTo, boolTo, intTo, floatTo, strTo, timeTo, regexpTo, zero, VK.has] at h; subst h; rfl)
  · rw [value_ok h]; rfl

theorem goes_slice {vs : List Val} {e : GT} (hr : rtype (.arr vs) = some (.slice e)) {gs : List GV} (h : reflectAll E vs e = some gs) :
    Goes E (.arr vs) (.slice e) := by
  have h1 : reflectTo E (.arr vs) (.slice e) = some (.slice e (some gs)) := by
    rw [reflectTo]
    · simp only [target]; rw [h]; rfl
    · simp
  exact ⟨hr, ⟨_, h1⟩, ⟨_, to_iface h1 hr (by simp) (by simp)⟩⟩

theorem goes_map {es : List (Val × Val)} {k w : GT} (hr : rtype (.map es) = some (.map k w)) {gs : List (GV × GV)}
    (h : reflectEntries E es k w [] = some gs) : Goes E (.map es) (.map k w) := by
  have h1 : reflectTo E (.map es) (.map k w) = some (.map k w (some gs)) := by
    rw [reflectTo]
    · simp only [target]; rw [h]; rfl
    · simp
  exact ⟨hr, ⟨_, h1⟩, ⟨_, to_iface h1 hr (by simp) (by simp)⟩⟩

theorem all_go {e : GT} : ∀ {vs : List Val}, (∀ v ∈ vs, ∃ g, reflectTo E v e = some g) → ∃ gs, reflectAll E vs e = some gs
  | [], _ => ⟨[], rfl⟩
  | v :: vs, h => by
    obtain ⟨g, hg⟩ := h v (List.mem_cons_self ..)
    obtain ⟨gs, hgs⟩ := all_go fun x hx => h x (List.mem_cons_of_mem _ hx)
    exact ⟨g :: gs, by rw [reflectAll, hg, hgs]; rfl⟩

theorem entries_go {k w : GT} : ∀ {es : List (Val × Val)} {m : List (GV × GV)}, (∀ e ∈ es, (∃ g, reflectTo E e.1 k = some g ∧ hashable g = true) ∧
    ∃ g, reflectTo E e.2 w = some g) → ∃ gs, reflectEntries E es k w m = some gs
  | [], m, _ => ⟨m, rfl⟩
  | (a, b) :: es, m, h => by
    obtain ⟨⟨ga, ha, hh⟩, gb, hb⟩ := h _ (List.mem_cons_self ..)
    simp only at ha hb
    obtain ⟨gs, hgs⟩ := entries_go (m := setIndex E ga gb m) fun x hx => h x (List.mem_cons_of_mem _ hx)
    exact ⟨gs, by rw [reflectEntries, ha, Option.bind_some, hb, Option.bind_some, if_pos hh, hgs]⟩

theorem goes_simple {v : Val} (h : Simple v) : ∃ t, Goes E v t := by
  cases v <;> first
    | exact h.elim
    | exact ⟨_, rfl, ⟨_, rfl⟩, ⟨_, rfl⟩⟩

mutual
theorem goes : ∀ (v : Val), SimpleKeys v → ∃ t, Goes E v t
  | .arr vs, h => by
    rw [SimpleKeys] at h
    obtain ⟨ts, hts, ha⟩ := goesAll vs h
    cases vs with
    | nil => exact ⟨.slice .iface, goes_slice (gs := []) rfl rfl⟩
    | cons v vs =>
      cases ts with
      | nil =>
        obtain ⟨t, ht, _⟩ := (rtypes_mem hts).1 v (List.mem_cons_self ..)
        cases ht
      | cons t ts =>
        obtain ⟨e, he⟩ := common_cons t ts
        have hr : rtype (.arr (v :: vs)) = some (.slice e) := by rw [rtype, if_neg (by simp), hts, Option.bind_some, he]; rfl
        have hne := common_ne_any he fun t ht => by
          obtain ⟨x, _, hx⟩ := (rtypes_mem hts).2 t ht
          exact rtype_ne_any hx
        have hup := (common_upper he).1
        obtain ⟨gs, hgs⟩ := all_go (E := E) (e := e) (vs := v :: vs) fun x hx => by
          obtain ⟨u, hu⟩ := ha x hx
          obtain ⟨u', hm, hu'⟩ := (rtypes_mem hts).1 x hx
          have : u' = u := by have := hu.1; rw [hu'] at this; exact Option.some.inj this
          subst this
          exact goes_up hu (hup _ hm) hne
        exact ⟨_, goes_slice hr hgs⟩
  | .map es, h => by
    rw [SimpleKeys] at h
    obtain ⟨ts, hts, ha⟩ := goesEntries es h
    cases es with
    | nil => exact ⟨.map .iface .iface, goes_map (gs := []) rfl rfl⟩
    | cons e es =>
      cases ts with
      | nil =>
        obtain ⟨t, ht, _⟩ := rtypeEntries_mem hts e (List.mem_cons_self ..)
        cases ht
      | cons t ts =>
        obtain ⟨k, hk⟩ := common_cons t.1 (ts.map (·.1))
        obtain ⟨w, hw⟩ := common_cons t.2 (ts.map (·.2))
        have hne := rtypeEntries_ne hts
        have hk' := common_ne_any hk fun u hu => by
          rw [← List.map_cons (f := Prod.fst)] at hu
          obtain ⟨x, hx, rfl⟩ := List.mem_map.1 hu
          exact (hne x hx).1
        have hw' := common_ne_any hw fun u hu => by
          rw [← List.map_cons (f := Prod.snd)] at hu
          obtain ⟨x, hx, rfl⟩ := List.mem_map.1 hu
          exact (hne x hx).2
        have k_up : ∀ x ∈ e :: es, ∃ u, rtype x.1 = some u ∧ u.assignableTo k = true := by
          intro x hx
          obtain ⟨u, hu, h1, _⟩ := rtypeEntries_mem hts x hx
          exact ⟨u.1, h1, (common_upper hk).1 _ (by rw [← List.map_cons (f := Prod.fst)]; exact List.mem_map_of_mem hu)⟩
        have w_up : ∀ x ∈ e :: es, ∃ u, rtype x.2 = some u ∧ u.assignableTo w = true := by
          intro x hx
          obtain ⟨u, hu, _, h1⟩ := rtypeEntries_mem hts x hx
          exact ⟨u.2, h1, (common_upper hw).1 _ (by rw [← List.map_cons (f := Prod.snd)]; exact List.mem_map_of_mem hu)⟩
        have hc : k.comparable = true := by
          rcases common_mem hk with h | h | h
          · rw [← List.map_cons (f := Prod.fst)] at h
            obtain ⟨x, hx, rfl⟩ := List.mem_map.1 h
            obtain ⟨y, hy, hyx⟩ := entries_from hts x hx
            exact simple_comparable hyx (ha y hy).1
          · cases h
          · rw [h]; rfl
        have hr : rtype (.map (e :: es)) = some (.map k w) := by
          rw [rtype, if_neg (by simp), hts, Option.bind_some, List.map_cons, List.map_cons, hk, Option.bind_some, hw, Option.bind_some, mapOf, if_pos hc]
        obtain ⟨gs, hgs⟩ := entries_go (E := E) (k := k) (w := w) (es := e :: es) (m := []) fun x hx => by
          obtain ⟨hs, t2, ht2⟩ := ha x hx
          obtain ⟨t1, ht1⟩ := goes_simple (E := E) hs
          obtain ⟨u1, r1, a1⟩ := k_up x hx
          obtain ⟨u2, r2, a2⟩ := w_up x hx
          have e1 : t1 = u1 := by have := ht1.1; rw [r1] at this; exact (Option.some.inj this).symm
          have e2 : t2 = u2 := by have := ht2.1; rw [r2] at this; exact (Option.some.inj this).symm
          subst e1 e2
          obtain ⟨g, hg⟩ := goes_up ht1 a1 hk'
          exact ⟨⟨g, hg, simple_hashable hg hs ⟨_, r1, a1⟩⟩, goes_up ht2 a2 hw'⟩
        exact ⟨_, goes_map hr hgs⟩
  | .bin b, h => ⟨_, rfl, ⟨bytes b, by simp [reflectTo, binTo]⟩, ⟨_, rfl⟩⟩
  | .nil, h => goes_simple trivial
  | .bool _, h => goes_simple trivial
  | .int _, h => goes_simple trivial
  | .float _, h => goes_simple trivial
  | .str _, h => goes_simple trivial
  | .time _, h => goes_simple trivial
  | .regexp _, h => goes_simple trivial
  | .sens _, h => goes_simple trivial
  | .entry .., h => goes_simple trivial

theorem goesAll : ∀ (vs : List Val), SimpleKeysAll vs → ∃ ts, rtypes vs = some ts ∧ ∀ v ∈ vs, ∃ t, Goes E v t
  | [], h => ⟨[], rfl, by simp⟩
  | v :: vs, h => by
    rw [SimpleKeysAll] at h
    obtain ⟨t, ht⟩ := goes v h.1
    obtain ⟨ts, hts, ha⟩ := goesAll vs h.2
    refine ⟨t :: ts, by rw [rtypes, ht.1, hts]; rfl, ?_⟩
    intro x hx
    rcases List.mem_cons.1 hx with rfl | hx
    · exact ⟨t, ht⟩
    · exact ha x hx

theorem goesEntries : ∀ (es : List (Val × Val)), SimpleKeysEntries es → ∃ ts, rtypeEntries es = some ts ∧ ∀ e ∈ es, Simple e.1 ∧ ∃ t, Goes E e.2 t
  | [], h => ⟨[], rfl, by simp⟩
  | (k, v) :: es, h => by
    rw [SimpleKeysEntries] at h
    obtain ⟨t, ht⟩ := goes v h.2.1
    obtain ⟨u, hu⟩ := goes_simple (E := E) h.1
    obtain ⟨ts, hts, ha⟩ := goesEntries es h.2.2
    refine ⟨(u, t) :: ts, by rw [rtypeEntries, hu.1, Option.bind_some, ht.1, Option.bind_some, hts]; rfl, ?_⟩
    intro x hx
    rcases List.mem_cons.1 hx with rfl | hx
    · exact ⟨h.1, t, ht⟩
    · exact ha x hx
end

end Verif.Reflect
