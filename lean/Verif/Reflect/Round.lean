import Verif.Reflect.Spec
/-!
# Reading back what was stored
-/
set_option autoImplicit false
set_option linter.unusedVariables false
set_option linter.unusedSimpArgs false
namespace Verif.Reflect
open Verif.Value

variable {E : Env}

theorem wrap_fits {k : IK} {i : BitVec 64} (h1 : k.min ≤ i.toInt) (h2 : i.toInt ≤ k.max) : wrap k i = i.toInt := by
  have hlt := i.isLt
  have hi : (i.toNat < 2 ^ 63 ∧ i.toInt = i.toNat) ∨ (2 ^ 63 ≤ i.toNat ∧ i.toInt = i.toNat - 2 ^ 64) := by
    rw [BitVec.toInt_eq_toNat_cond]; split <;> omega
  generalize i.toInt = j at *
  cases k <;> simp [wrap, IK.signed, IK.bits, IK.min, IK.max] at h1 h2 ⊢ <;>
    (try simp only [BitVec.toInt_eq_toNat_cond, BitVec.toNat_setWidth, Int.bmod_def] at *) <;> omega

theorem ofInt_wrap {k : IK} {i : BitVec 64} (h1 : k.min ≤ i.toInt) (h2 : i.toInt ≤ k.max) : ofInt k (wrap k i) = .ok (.int i) := by
  have hlt := BitVec.toInt_lt (x := i)
  rw [wrap_fits h1 h2, ofInt, if_neg (by omega), BitVec.ofInt_toInt]

theorem fits64 (i : BitVec 64) : IK.int64.min ≤ i.toInt ∧ i.toInt ≤ IK.int64.max := by
  have h1 := BitVec.toInt_lt (x := i)
  have h2 := BitVec.le_toInt (x := i)
  simp [IK.min, IK.max, IK.signed, IK.bits] at *
  omega

theorem read_bytes (b : List UInt8) : fromReflected E (bytes b) = .ok (.bin b) := by
  have : (b.map fun x => byte (.int .uint8 x.toNat)) = b := by
    induction b with
    | nil => rfl
    | cons x b ih => rw [List.map_cons, ih]; simp [byte]
  simp [bytes, fromReflected, Function.comp_def, this]

/-! ## Types -/

theorem assignableTo_trans {a b c : GT} (h1 : a.assignableTo b = true) (h2 : b.assignableTo c = true) : a.assignableTo c = true := by
  simp only [GT.assignableTo, Bool.or_eq_true, beq_iff_eq] at *
  rcases h1 with rfl | h1
  · exact h2
  · rcases h2 with rfl | h2
    · exact .inr h1
    · right
      split at h2
      · rfl
      · split at h1 <;> simp_all
      · cases h2

theorem common_upper : ∀ {ts : List GT} {p : Option GT} {e : GT}, common p ts = some e →
    (∀ t ∈ ts, t.assignableTo e = true) ∧ ∀ q, p = some q → q.assignableTo e = true
  | [], p, e, h => ⟨by simp, fun q hq => by rw [common] at h; rw [hq] at h; cases h; simp [GT.assignableTo]⟩
  | t :: ts, none, e, h => by
    rw [common] at h
    have ⟨h1, h2⟩ := common_upper h
    exact ⟨fun x hx => by rcases List.mem_cons.1 hx with rfl | hx; exacts [h2 _ rfl, h1 _ hx], by simp⟩
  | t :: ts, some p, e, h => by
    rw [common] at h
    split at h
    · rename_i ha
      have ⟨h1, h2⟩ := common_upper h
      have hp := h2 _ rfl
      refine ⟨fun x hx => ?_, fun q hq => by cases hq; exact hp⟩
      rcases List.mem_cons.1 hx with rfl | hx
      · exact assignableTo_trans ha hp
      · exact h1 _ hx
    · split at h
      · rename_i ha
        have ⟨h1, h2⟩ := common_upper h
        have hp := h2 _ rfl
        refine ⟨fun x hx => ?_, fun q hq => by cases hq; exact assignableTo_trans ha hp⟩
        rcases List.mem_cons.1 hx with rfl | hx
        · exact hp
        · exact h1 _ hx
      · cases h
        simp [GT.assignableTo]

theorem common_mem : ∀ {ts : List GT} {p : Option GT} {e : GT}, common p ts = some e → e ∈ ts ∨ p = some e ∨ e = .iface
  | [], p, e, h => .inr (.inl (by rw [common] at h; exact h))
  | t :: ts, none, e, h => by
    rw [common] at h
    rcases common_mem h with h | h | h
    · exact .inl (List.mem_cons_of_mem _ h)
    · cases h; exact .inl (List.mem_cons_self ..)
    · exact .inr (.inr h)
  | t :: ts, some p, e, h => by
    rw [common] at h
    split at h
    · rcases common_mem h with h | h | h
      · exact .inl (List.mem_cons_of_mem _ h)
      · exact .inr (.inl h)
      · exact .inr (.inr h)
    · split at h
      · rcases common_mem h with h | h | h
        · exact .inl (List.mem_cons_of_mem _ h)
        · cases h; exact .inl (List.mem_cons_self ..)
        · exact .inr (.inr h)
      · cases h; exact .inr (.inr rfl)

theorem noTimes_iff (vs : List Val) : NoTimes vs ↔ ∀ v ∈ vs, NoTime v := by
  induction vs with
  | nil => simp [NoTimes]
  | cons v vs ih => simp [NoTimes, ih]

theorem noTimeEntries_iff (es : List (Val × Val)) : NoTimeEntries es ↔ ∀ e ∈ es, NoTime e.1 ∧ NoTime e.2 := by
  induction es with
  | nil => simp [NoTimeEntries]
  | cons e es ih => obtain ⟨k, v⟩ := e; simp [NoTimeEntries, ih, and_assoc]

theorem rtype_ne_byte {v : Val} {t : GT} (h : rtype v = some t) : t ≠ .int .uint8 := by
  rintro rfl
  cases v with
  | arr vs =>
    rw [rtype] at h
    split at h
    · cases h
    · obtain ⟨_, _, h⟩ := Option.map_eq_some_iff.1 h
      cases h
  | map es =>
    rw [rtype] at h
    split at h
    · cases h
    · simp only [Option.bind_eq_some_iff] at h
      obtain ⟨_, _, _, _, _, _, h⟩ := h
      rw [mapOf] at h
      split at h <;> cases h
  | _ => rw [rtype] at h; cases h

theorem rtypes_mem : ∀ {vs : List Val} {ts : List GT}, rtypes vs = some ts → (∀ v ∈ vs, ∃ t ∈ ts, rtype v = some t) ∧ ∀ t ∈ ts, ∃ v ∈ vs, rtype v = some t
  | [], ts, h => by rw [rtypes] at h; cases h; simp
  | v :: vs, ts, h => by
    rw [rtypes] at h
    simp only [Option.bind_eq_some_iff, Option.map_eq_some_iff] at h
    obtain ⟨t, ht, us, hu, rfl⟩ := h
    have ⟨h1, h2⟩ := rtypes_mem hu
    constructor
    · intro x hx
      rcases List.mem_cons.1 hx with rfl | hx
      · exact ⟨t, List.mem_cons_self .., ht⟩
      · obtain ⟨u, hu, e⟩ := h1 x hx
        exact ⟨u, List.mem_cons_of_mem _ hu, e⟩
    · intro x hx
      rcases List.mem_cons.1 hx with rfl | hx
      · exact ⟨v, List.mem_cons_self .., ht⟩
      · obtain ⟨u, hu, e⟩ := h2 x hx
        exact ⟨u, List.mem_cons_of_mem _ hu, e⟩

theorem rtypeEntries_mem : ∀ {es : List (Val × Val)} {ts : List (GT × GT)}, rtypeEntries es = some ts →
    ∀ e ∈ es, ∃ t ∈ ts, rtype e.1 = some t.1 ∧ rtype e.2 = some t.2
  | [], ts, h => by simp
  | (k, v) :: es, ts, h => by
    rw [rtypeEntries] at h
    simp only [Option.bind_eq_some_iff, Option.map_eq_some_iff] at h
    obtain ⟨t, ht, u, hu, us, hus, rfl⟩ := h
    have h1 := rtypeEntries_mem hus
    intro x hx
    rcases List.mem_cons.1 hx with rfl | hx
    · exact ⟨(t, u), List.mem_cons_self .., ht, hu⟩
    · obtain ⟨w, hw, e⟩ := h1 x hx
      exact ⟨w, List.mem_cons_of_mem _ hw, e⟩

/-- From the type of its own to one that it can be assigned to -/
theorem survives_up {v : Val} {t e : GT} (hn : NoTime v) (hs : Survives E t v) (ha : t.assignableTo e = true) : Survives E e v := by
  simp only [GT.assignableTo, Bool.or_eq_true, beq_iff_eq] at ha
  rcases ha with rfl | ha
  · exact hs
  · split at ha
    · exact hn
    · trivial
    · cases ha

/-- The elements of an array, and the type for them -/
theorem rtype_arr {vs : List Val} {t : GT} (h : rtype (.arr vs) = some t) : ∃ e, t = .slice e ∧ e ≠ .int .uint8 ∧
    ∀ v ∈ vs, ∃ u, rtype v = some u ∧ u.assignableTo e = true := by
  rw [rtype] at h
  split at h
  · rename_i he
    rw [List.isEmpty_iff.1 he]
    cases h
    exact ⟨.iface, rfl, by simp, by simp⟩
  · simp only [Option.map_eq_some_iff, Option.bind_eq_some_iff] at h
    obtain ⟨e, ⟨ts, hts, hc⟩, rfl⟩ := h
    refine ⟨e, rfl, ?_, fun v hv => ?_⟩
    · rcases common_mem hc with he | he | he
      · obtain ⟨v, _, hv⟩ := (rtypes_mem hts).2 _ he
        exact rtype_ne_byte hv
      · cases he
      · simp [he]
    · obtain ⟨u, hu, e1⟩ := (rtypes_mem hts).1 v hv
      exact ⟨u, e1, (common_upper hc).1 u hu⟩

theorem rtype_map {es : List (Val × Val)} {t : GT} (h : rtype (.map es) = some t) : ∃ k w, t = .map k w ∧
    ∀ e ∈ es, (∃ u, rtype e.1 = some u ∧ u.assignableTo k = true) ∧ ∃ u, rtype e.2 = some u ∧ u.assignableTo w = true := by
  rw [rtype] at h
  split at h
  · rename_i he
    rw [List.isEmpty_iff.1 he]
    cases h
    exact ⟨.iface, .iface, rfl, by simp⟩
  · simp only [Option.bind_eq_some_iff, mapOf] at h
    obtain ⟨ts, hts, k, hk, w, hw, h⟩ := h
    split at h
    · cases h
      refine ⟨k, w, rfl, fun e he => ?_⟩
      obtain ⟨t, ht, e1, e2⟩ := rtypeEntries_mem hts e he
      exact ⟨⟨_, e1, (common_upper hk).1 _ (List.mem_map_of_mem ht)⟩, ⟨_, e2, (common_upper hw).1 _ (List.mem_map_of_mem ht)⟩⟩
    · cases h

mutual
/-- The type of its own can hold a value without times. -/
theorem survives_own : ∀ (v : Val) (t : GT), NoTime v → rtype v = some t → Survives E t v
  | .nil, t, _, h => by rw [rtype] at h; cases h; simp [Survives, NoTime]
  | .bool _, t, _, h => by rw [rtype] at h; cases h; simp [Survives]
  | .int i, t, _, h => by
    rw [rtype] at h; cases h
    simp only [Survives]
    exact ⟨by simp, fun j hj => by cases hj; exact fits64 i⟩
  | .float _, t, _, h => by rw [rtype] at h; cases h; simp [Survives]
  | .str _, t, _, h => by rw [rtype] at h; cases h; simp [Survives]
  | .bin _, t, _, h => by rw [rtype] at h; cases h; simp [Survives]
  | .time _, t, hn, h => by simp [NoTime] at hn
  | .regexp _, t, _, h => by rw [rtype] at h; cases h; simp [Survives]
  | .sens _, t, _, h => by rw [rtype] at h; cases h; simp [Survives]
  | .entry .., t, _, h => by rw [rtype] at h; cases h; simp [Survives]
  | .arr vs, t, hn, h => by
    obtain ⟨e, rfl, he, hv⟩ := rtype_arr h
    simp only [Survives]
    rintro ws ⟨⟩
    exact ⟨he, fun x hx => by
      obtain ⟨u, hu, ha⟩ := hv x hx
      exact survives_up ((noTimes_iff vs).1 (by simpa [NoTime] using hn) x hx) (survives_owns vs (by simpa [NoTime] using hn) x hx u hu) ha⟩
  | .map es, t, hn, h => by
    obtain ⟨k, w, rfl, hv⟩ := rtype_map h
    simp only [Survives]
    rintro ws ⟨⟩ e he
    have hn' : NoTimeEntries es := by simpa [NoTime] using hn
    have ⟨n1, n2⟩ := (noTimeEntries_iff es).1 hn' e he
    obtain ⟨⟨u, hu, ha⟩, u', hu', ha'⟩ := hv e he
    have ⟨s1, s2⟩ := survives_ownEntries es hn' e he
    exact ⟨survives_up n1 (s1 u hu) ha, survives_up n2 (s2 u' hu') ha'⟩
theorem survives_owns : ∀ (vs : List Val), NoTimes vs → ∀ v ∈ vs, ∀ t, rtype v = some t → Survives E t v
  | [], _, v, hv, _, _ => by simp at hv
  | v :: vs, hn, x, hx, t, ht => by
    rw [NoTimes] at hn
    rcases List.mem_cons.1 hx with h | h
    · rw [h] at ht ⊢; exact survives_own v t hn.1 ht
    · exact survives_owns vs hn.2 x h t ht
theorem survives_ownEntries : ∀ (es : List (Val × Val)), NoTimeEntries es → ∀ e ∈ es,
    (∀ t, rtype e.1 = some t → Survives E t e.1) ∧ ∀ t, rtype e.2 = some t → Survives E t e.2
  | [], _, e, he => by simp at he
  | (k, v) :: es, hn, x, hx => by
    rw [NoTimeEntries] at hn
    rcases List.mem_cons.1 hx with h | h
    · rw [h]; exact ⟨fun t ht => survives_own k t hn.1 ht, fun t ht => survives_own v t hn.2.1 ht⟩
    · exact survives_ownEntries es hn.2.2 x h
end

/-! ## Keys -/

theorem keyEq_eq : ∀ {a b : GV} {x y : Val}, keyEq E a b = true → fromReflected E a = .ok x → fromReflected E b = .ok y → eq x y = true := by
  intro a b x y h ha hb
  fun_induction keyEq E a b
  case case2 k n k' n' =>
    simp only [Bool.and_eq_true, beq_iff_eq] at h
    obtain ⟨rfl, rfl⟩ := h
    rw [ha] at hb
    cases hb
    rw [fromReflected, ofInt] at ha
    split at ha <;> cases ha
    simp [eq]
  case case9 a b ih =>
    rw [fromReflected] at ha hb
    exact ih h ha hb
  all_goals first
    | exact absurd h Bool.false_ne_true
    | (rw [fromReflected] at ha hb; cases ha; cases hb; first | rfl | simpa [eq] using h)

theorem keyEq_nan : ∀ {a : GV} {x : Val}, fromReflected E a = .ok x → WF x → nanKey E a = false := by
  intro a x h hw
  fun_induction nanKey E a
  case case3 g ih => rw [fromReflected] at h; exact ih h
  all_goals first
    | rfl
    | (rw [fromReflected] at h; cases h; simpa [WF] using hw)

theorem setIndex_new {k v : GV} : ∀ {m : List (GV × GV)}, (∀ e ∈ m, keyEq E k e.1 = false) → setIndex E k v m = m ++ [(k, v)]
  | [], _ => rfl
  | e :: m, h => by
    rw [setIndex, if_neg (by rw [h e (List.mem_cons_self ..)]; simp), setIndex_new fun x hx => h x (List.mem_cons_of_mem _ hx)]
    rfl

theorem bind_ok {α β ε : Type} {a : Except ε α} {f : α → Except ε β} {b : β} (h : a.bind f = .ok b) : ∃ x, a = .ok x ∧ f x = .ok b := by
  cases a with
  | error => cases h
  | ok x => exact ⟨x, rfl, h⟩

theorem map_ok {α β ε : Type} {a : Except ε α} {f : α → β} {b : β} (h : a.map f = .ok b) : ∃ x, a = .ok x ∧ f x = b := by
  cases a with
  | error => cases h
  | ok x => exact ⟨x, rfl, by simpa [Except.map] using h⟩

theorem fromEntries_cons {k v : GV} {m : List (GV × GV)} {x : List (Val × Val)} (h : fromEntries E ((k, v) :: m) = .ok x) :
    ∃ p q r, fromReflected E k = .ok p ∧ (if nanKey E k then .ok .nil else fromReflected E v) = .ok q ∧ fromEntries E m = .ok r ∧ x = (p, q) :: r := by
  rw [fromEntries] at h
  obtain ⟨p, h1, h⟩ := bind_ok h
  obtain ⟨q, h2, h⟩ := bind_ok h
  obtain ⟨r, h3, h⟩ := map_ok h
  exact ⟨p, q, r, h1, h2, h3, h.symm⟩

theorem fromEntries_append : ∀ {a b : List (GV × GV)} {x y : List (Val × Val)}, fromEntries E a = .ok x → fromEntries E b = .ok y →
    fromEntries E (a ++ b) = .ok (x ++ y)
  | [], b, x, y, ha, hb => by rw [fromEntries] at ha; cases ha; simpa using hb
  | (k, v) :: a, b, x, y, ha, hb => by
    obtain ⟨p, q, r, h1, h2, h3, rfl⟩ := fromEntries_cons ha
    rw [List.cons_append, fromEntries, h1, h2, fromEntries_append h3 hb]
    rfl

theorem mem_fromEntries : ∀ {m : List (GV × GV)} {x : List (Val × Val)}, fromEntries E m = .ok x → ∀ g ∈ m, ∃ e ∈ x, fromReflected E g.1 = .ok e.1
  | [], x, h, g, hg => by simp at hg
  | (k, v) :: m, x, h, g, hg => by
    obtain ⟨p, q, r, h1, h2, h3, rfl⟩ := fromEntries_cons h
    rcases List.mem_cons.1 hg with rfl | hg
    · exact ⟨_, List.mem_cons_self .., h1⟩
    · obtain ⟨e, he, h⟩ := mem_fromEntries h3 g hg
      exact ⟨e, List.mem_cons_of_mem _ he, h⟩

theorem value_ok {v : Val} {k : VK} {g : GV} (h : reflectTo E v (.value k) = some g) : g = .value k (some v) := by
  cases v <;> rw [reflectTo] at h <;> split at h <;> simp_all

theorem read_value {v : Val} {t : GT} {g : GV} {f : GT → Option GV} (ht : (∃ k, t = .value k) ∨ reflectTo E v t = f t) (h : reflectTo E v t = some g)
    (hf : f t = some g → fromReflected E g = .ok v) : fromReflected E g = .ok v := by
  rcases ht with ⟨k, rfl⟩ | ht
  · rw [value_ok h]; rfl
  · exact hf (ht ▸ h)

theorem isValue (t : GT) : (∃ k, t = .value k) ∨ ∀ k, t ≠ .value k := by cases t <;> simp

theorem round_int {i : BitVec 64} {t : GT} {g : GV} (h : reflectTo E (.int i) t = some g) (hs : Survives E t (.int i)) :
    fromReflected E g = .ok (.int i) := by
  refine read_value (f := intTo i) (by cases t <;> simp [reflectTo]) h fun h => ?_
  unfold intTo at h
  split at h
  · cases h
    rw [Survives] at hs
    have ⟨h1, h2⟩ := hs.2 i rfl
    rw [fromReflected, ofInt_wrap h1 h2]
  · cases h
    simp [Survives] at hs
    rw [fromReflected, fromReflected, ofInt_wrap hs.1 hs.2]
    all_goals simp
  · cases h
    rw [fromReflected, fromReflected, ofInt_wrap (fits64 i).1 (fits64 i).2]
  · cases h

theorem round_bool {b : Bool} {t : GT} {g : GV} (h : reflectTo E (.bool b) t = some g) : fromReflected E g = .ok (.bool b) := by
  refine read_value (f := boolTo b) (by cases t <;> simp [reflectTo]) h fun h => ?_
  unfold boolTo at h
  split at h <;> cases h <;> simp [fromReflected]

theorem round_str {s : Str} {t : GT} {g : GV} (h : reflectTo E (.str s) t = some g) : fromReflected E g = .ok (.str s) := by
  refine read_value (f := strTo s) (by cases t <;> simp [reflectTo]) h fun h => ?_
  unfold strTo at h
  split at h <;> cases h <;> simp [fromReflected]

theorem round_float {f : F64} {t : GT} {g : GV} (h : reflectTo E (.float f) t = some g) (hs : Survives E t (.float f)) :
    fromReflected E g = .ok (.float f) := by
  refine read_value (f := floatTo E f) (by cases t <;> simp [reflectTo]) h fun h => ?_
  unfold floatTo at h
  split at h <;> cases h <;> simp [fromReflected, Survives] at hs ⊢ <;> exact hs

theorem round_bin {b : List UInt8} {t : GT} {g : GV} (h : reflectTo E (.bin b) t = some g) : fromReflected E g = .ok (.bin b) := by
  refine read_value (f := binTo b) (by cases t <;> simp [reflectTo]) h fun h => ?_
  unfold binTo at h
  split at h <;> cases h
  · rw [fromReflected, if_neg (by simp), if_neg (by simp)]; exact read_bytes b
  · exact read_bytes b
  · rw [fromReflected]; exact read_bytes b

theorem round_time {ns : Int} {t : GT} {g : GV} (h : reflectTo E (.time ns) t = some g) (hs : Survives E t (.time ns)) :
    fromReflected E g = .ok (.time ns) := by
  refine read_value (f := timeTo ns) (by cases t <;> simp [reflectTo]) h fun h => ?_
  unfold timeTo at h
  split at h <;> cases h <;> simp [fromReflected, Survives, NoTime] at hs ⊢

theorem round_regexp {s : Str} {t : GT} {g : GV} (h : reflectTo E (.regexp s) t = some g) (hs : Survives E t (.regexp s)) :
    fromReflected E g = .ok (.regexp s) := by
  refine read_value (f := regexpTo s) (by cases t <;> simp [reflectTo]) h fun h => ?_
  unfold regexpTo at h
  split at h <;> cases h <;> simp [fromReflected, regexpOf, Survives, NoTime] at hs ⊢

/-- What is read from where an array or map is put -/
theorem read_put {g : GV} {i : Into} {v : Val} (h1 : g.type ≠ .time) (h2 : g.type ≠ .regexp) (h : fromReflected E g = .ok v) :
    fromReflected E (i.put g) = .ok v := by
  cases i
  · exact h
  · rw [Into.put, fromReflected, if_neg h2, if_neg h1]; exact h
  · rw [Into.put, fromReflected]; exact h

theorem native_not {g : GV} {v : Val} (h : fromReflected E g = .ok v) : isNative g = false := by
  fun_induction isNative g <;> simp_all [fromReflected]

/-- The type that is looked at can hold the array or map too. -/
theorem survives_target {v : Val} {t u : GT} {i : Into} (hv : v ≠ .nil) (h : target (rtype v) t = some (u, i)) (hr : u ≠ .regexp) (hs : Survives E t v) :
    Survives E u v := by
  unfold target at h
  split at h
  · cases h
  · cases h
    rw [Survives] at hs
    rcases hs with h | h | h
    · exact absurd h hv
    · exact absurd h hr
    · exact h.2
  · obtain ⟨w, hw, h⟩ := Option.map_eq_some_iff.1 h
    cases h
    rw [Survives] at hs
    exact survives_own v _ hs hw
  · cases h; exact hs

mutual
theorem round : ∀ (v : Val) (t : GT) (g : GV), reflectTo E v t = some g → Survives E t v → WF v → fromReflected E g = .ok v
  | .nil, t, g, h, hs, hw => by
    cases t <;> simp [reflectTo, zero, Survives] at h hs <;> first | (subst h; rfl) | (obtain ⟨_, rfl⟩ := h; rfl)
  | .bool b, t, g, h, hs, hw => round_bool h
  | .int i, t, g, h, hs, hw => round_int h hs
  | .float f, t, g, h, hs, hw => round_float h hs
  | .str s, t, g, h, hs, hw => round_str h
  | .bin b, t, g, h, hs, hw => round_bin h
  | .time ns, t, g, h, hs, hw => round_time h hs
  | .regexp s, t, g, h, hs, hw => round_regexp h hs
  | .sens v, t, g, h, hs, hw => by
    cases t <;> simp [reflectTo] at h <;> first | (subst h; rfl) | (obtain ⟨_, rfl⟩ := h; rfl)
  | .entry k v, t, g, h, hs, hw => by
    cases t <;> simp [reflectTo] at h <;> first | (subst h; rfl) | (obtain ⟨_, rfl⟩ := h; rfl)
  | .arr vs, t, g, h, hs, hw => by
    rcases isValue t with ⟨k, rfl⟩ | ht
    · rw [value_ok h]; rfl
    rw [reflectTo] at h
    split at h
    · rename_i e i ht
      obtain ⟨gs, hg, rfl⟩ := Option.map_eq_some_iff.1 h
      have hs' := survives_target (by simp) ht (by simp) hs
      rw [Survives] at hs'
      have ⟨he, hx⟩ := hs' vs rfl
      refine read_put (by simp [GV.type]) (by simp [GV.type]) ?_
      rw [fromReflected, if_neg he, roundAll vs e gs hg hx (by simpa [WF] using hw)]
      rfl
    · cases h
    · exact ht
  | .map es, t, g, h, hs, hw => by
    rcases isValue t with ⟨k, rfl⟩ | ht
    · rw [value_ok h]; rfl
    rw [reflectTo] at h
    split at h
    · rename_i k w i ht
      obtain ⟨gs, hg, rfl⟩ := Option.map_eq_some_iff.1 h
      have hs' := survives_target (by simp) ht (by simp) hs
      rw [Survives] at hs'
      have hx := hs' es rfl
      refine read_put (by simp [GV.type]) (by simp [GV.type]) ?_
      simp only [WF] at hw
      rw [fromReflected, roundEntries es k w [] [] gs hg hx hw.1 (by simp [WFes]) rfl (by simpa using hw.2)]
      rfl
    · cases h
    · exact ht

theorem roundAll : ∀ (vs : List Val) (t : GT) (gs : List GV), reflectAll E vs t = some gs → (∀ v ∈ vs, Survives E t v) → WFs vs →
    fromAll E (t == .value .any) gs = .ok vs
  | [], t, gs, h, hs, hw => by rw [reflectAll] at h; cases h; rw [fromAll]
  | v :: vs, t, gs, h, hs, hw => by
    rw [reflectAll] at h
    simp only [Option.bind_eq_some_iff, Option.map_eq_some_iff] at h
    obtain ⟨g, hg, rs, hr, rfl⟩ := h
    rw [WFs] at hw
    have h1 := round v t g hg (hs v (List.mem_cons_self ..)) hw.1
    have h2 := roundAll vs t rs hr (fun x hx => hs x (List.mem_cons_of_mem _ hx)) hw.2
    have h3 : ((t == .value .any) && goNil g) = false := by
      cases ht : t == .value .any with
      | false => rfl
      | true =>
        simp only [beq_iff_eq] at ht
        subst ht
        rw [value_ok hg]; rfl
    rw [fromAll, h3, if_neg (by simp), native_not h1, if_neg (by simp), h1, h2]
    rfl

theorem roundEntries : ∀ (es : List (Val × Val)) (k w : GT) (m : List (GV × GV)) (x : List (Val × Val)) (gs : List (GV × GV)),
    reflectEntries E es k w m = some gs → (∀ e ∈ es, Survives E k e.1 ∧ Survives E w e.2) → WFes es → WFes x → fromEntries E m = .ok x →
    (x ++ es).Pairwise (fun a b => eq a.1 b.1 = false) → fromEntries E gs = .ok (x ++ es)
  | [], k, w, m, x, gs, h, hs, hw, hxw, hm, hp => by rw [reflectEntries] at h; cases h; simpa using hm
  | (a, b) :: es, k, w, m, x, gs, h, hs, hw, hxw, hm, hp => by
    rw [reflectEntries] at h
    simp only [Option.bind_eq_some_iff] at h
    obtain ⟨ga, ha, gb, hb, h⟩ := h
    split at h
    · rw [WFes] at hw
      have ⟨s1, s2⟩ := hs _ (List.mem_cons_self ..)
      have r1 := round a k ga ha s1 hw.1
      have r2 := round b w gb hb s2 hw.2.1
      have hnew : ∀ e ∈ m, keyEq E ga e.1 = false := by
        intro e he
        obtain ⟨y, hy, hr⟩ := mem_fromEntries hm e he
        cases hk : keyEq E ga e.1 with
        | false => rfl
        | true =>
          have := keyEq_eq hk r1 hr
          have this := laws.symm _ _ hw.1 ((WFes_iff x).1 hxw y hy).1 this
          have hq := (List.pairwise_append.1 hp).2.2 y hy (a, b) (List.mem_cons_self ..)
          rw [this] at hq
          cases hq
      rw [setIndex_new hnew] at h
      have hone : fromEntries E [(ga, gb)] = .ok [(a, b)] := by
        rw [fromEntries, r1, keyEq_nan r1 hw.1, if_neg (by simp), r2, fromEntries]; rfl
      have := roundEntries es k w _ (x ++ [(a, b)]) gs h (fun e he => hs e (List.mem_cons_of_mem _ he)) hw.2.2
        ((WFes_iff _).2 fun e he => by
          rcases List.mem_append.1 he with he | he
          · exact (WFes_iff x).1 hxw e he
          · rw [List.mem_singleton.1 he]; exact ⟨hw.1, hw.2.1⟩) (fromEntries_append hm hone)
        (by simpa using hp)
      simpa using this
    · cases h
end

end Verif.Reflect
