import Verif.Reflect.OfTypeSpec
import Verif.Reflect.FromTypeLemmas
import Verif.Types.Congr
import Verif.Types.EqSound
/-!
# Lemmas for C87: what a Go variable of the type takes
-/
set_option autoImplicit false
set_option linter.unusedVariables false
set_option linter.unusedSimpArgs false
set_option linter.unusedSectionVars false
namespace Verif.Reflect
open Verif.Value Verif.Types

/-- The values that a variable of the type takes, for the types that `ReflectType` makes -/
def Takes : GT → Val → Prop
  | .bool, v => ∃ b, v = .bool b
  | .int k, v => k = .int64 ∧ ∃ i, v = .int i
  | .float64, v => ∃ f, v = .float f
  | .string, v => ∃ s, v = .str s
  | .time, v => ∃ n, v = .time n
  | .ptr t, v => t = .regexp ∧ ∃ s, v = .regexp s
  | .slice e, v => (e = .int .uint8 ∧ ∃ b, v = .bin b) ∨ (e ≠ .int .uint8 ∧ ∃ vs, v = .arr vs ∧ ∀ x ∈ vs, Takes e x)
  | .map k w, v => k.comparable = true ∧ ∃ es, v = .map es ∧ ∀ e ∈ es, Takes k e.1 ∧ Takes w e.2
  | .iface, _ => True
  | .value k, v => k.has v = true
  | _, _ => False

theorem assignable_trans {a b c : GT} (h1 : a.assignableTo b = true) (h2 : b.assignableTo c = true) : a.assignableTo c = true := by
  unfold GT.assignableTo at *
  cases a <;> cases b <;> cases c <;> simp_all
  all_goals grind

theorem takes_up {a b : GT} {v : Val} (h : Takes a v) (ha : a.assignableTo b = true) : Takes b v := by
  unfold GT.assignableTo at ha
  simp only [Bool.or_eq_true, beq_iff_eq] at ha
  rcases ha with rfl | ha
  · exact h
  · split at ha
    · trivial
    · simp only [Takes, VK.has]
    · cases ha

/-- What `commonReflectTo` returns is above everything it has looked at. -/
theorem commonT_up : ∀ (rs : List RT) (prev : Option GT) (g : GT), commonT prev rs = .of g → (∀ r ∈ rs, r ≠ some none) →
    g = .iface ∨ ((∀ p, prev = some p → p.assignableTo g = true) ∧ ∀ r ∈ rs, ∃ t, r = some (some t) ∧ t.assignableTo g = true)
  | [], prev, g, h, _ => by
    cases h
    refine .inr ⟨?_, by simp⟩
    rintro p ⟨rfl⟩
    simp [GT.assignableTo]
  | none :: _, prev, g, h, _ => by cases prev <;> cases h
  | some none :: _, prev, g, h, hn => absurd rfl (hn _ (by simp))
  | some (some t) :: r, none, g, h, hn => by
    rcases commonT_up r (some t) g h fun x hx => hn x (by simp [hx]) with h | ⟨h1, h2⟩
    · exact .inl h
    · refine .inr ⟨by simp, ?_⟩
      intro x hx
      rcases List.mem_cons.1 hx with rfl | hx
      · exact ⟨t, rfl, h1 t rfl⟩
      · exact h2 x hx
  | some (some t) :: r, some p, g, h, hn => by
    rw [commonT] at h
    split at h
    · rename_i hp
      rcases commonT_up r (some p) g h fun x hx => hn x (by simp [hx]) with h | ⟨h1, h2⟩
      · exact .inl h
      · refine .inr ⟨h1, ?_⟩
        intro x hx
        rcases List.mem_cons.1 hx with rfl | hx
        · exact ⟨t, rfl, assignable_trans hp (h1 p rfl)⟩
        · exact h2 x hx
    · split at h
      · rename_i hp
        rcases commonT_up r (some t) g h fun x hx => hn x (by simp [hx]) with h | ⟨h1, h2⟩
        · exact .inl h
        · refine .inr ⟨?_, ?_⟩
          · rintro q ⟨rfl⟩; exact assignable_trans hp (h1 t rfl)
          · intro x hx
            rcases List.mem_cons.1 hx with rfl | hx
            · exact ⟨t, rfl, h1 t rfl⟩
            · exact h2 x hx
      · cases h; exact .inl rfl

theorem commonT_takes {rs : List RT} {g : GT} {v : Val} (h : commonT none rs = .of g) (hn : ∀ r ∈ rs, r ≠ some none)
    (hv : ∃ r ∈ rs, ∀ t, r = .of t → Takes t v) : Takes g v := by
  rcases commonT_up rs none g h hn with rfl | ⟨-, h2⟩
  · trivial
  · obtain ⟨r, hr, ht⟩ := hv
    obtain ⟨t, rfl, ha⟩ := h2 r hr
    exact takes_up (ht t rfl) ha

theorem common_commonT : ∀ (ts : List GT) (p : Option GT), commonT p (ts.map fun t => some (some t)) = some (common p ts)
  | [], p => by simp [commonT, common]
  | t :: ts, none => by simp only [List.map_cons, commonT, common]; exact common_commonT ts (some t)
  | t :: ts, some p => by
    simp only [List.map_cons, commonT, common]
    split
    · exact common_commonT ts _
    · split
      · exact common_commonT ts _
      · rfl

theorem rtypes_some : ∀ {vs : List Val} {ts : List GT}, rtypes vs = some ts → vs.map valRT = ts.map fun t => some (some t)
  | [], ts, h => by cases h; rfl
  | v :: vs, ts, h => by
    simp only [rtypes, Option.bind_eq_some_iff, Option.map_eq_some_iff] at h
    obtain ⟨t, ht, us, hu, rfl⟩ := h
    simp only [List.map_cons, rtypes_some hu, valRT, ht, Option.map_some]

theorem rtypeEntries_some : ∀ {es : List (Val × Val)} {ts : List (GT × GT)}, rtypeEntries es = some ts →
    (es.map fun e => valRT e.1) = (ts.map (·.1)).map (fun t => some (some t)) ∧ (es.map fun e => valRT e.2) = (ts.map (·.2)).map fun t => some (some t)
  | [], ts, h => by cases h; exact ⟨rfl, rfl⟩
  | (k, v) :: es, ts, h => by
    simp only [rtypeEntries, Option.bind_eq_some_iff, Option.map_eq_some_iff] at h
    obtain ⟨t, ht, u, hu, us, hus, rfl⟩ := h
    have := rtypeEntries_some hus
    have hk : valRT k = some (some t) := by simp [valRT, ht]
    have hv : valRT v = some (some u) := by simp [valRT, hu]
    simp only [List.map_cons, hk, hv, this.1, this.2, and_self]

theorem valRT_nn (v : Val) : valRT v ≠ some none := by
  unfold valRT
  cases rtype v <;> simp

theorem mapOf_eq {k v t : GT} (h : mapOf k v = some t) : k.comparable = true ∧ t = .map k v := by
  unfold mapOf at h
  split at h
  · rename_i hc; cases h; exact ⟨hc, rfl⟩
  · cases h

theorem takes_ne_uint8 {e : GT} (h : ∀ k, e = .int k → k = .int64) : e ≠ .int .uint8 := by
  rintro rfl
  cases h _ rfl

/-- Types that `ReflectType` makes have no integers but `int64`. -/
def Wide : GT → Prop
  | .int k => k = .int64
  | _ => True

theorem commonT_wide : ∀ (rs : List RT) (prev : Option GT) (g : GT), commonT prev rs = .of g → (∀ p, prev = some p → Wide p) →
    (∀ r ∈ rs, ∀ t, r = .of t → Wide t) → Wide g
  | [], prev, g, h, hp, _ => by cases h; exact hp g rfl
  | none :: _, prev, g, h, _, _ => by cases prev <;> cases h
  | some none :: r, none, g, h, hp, hr => commonT_wide r none g h (by simp) fun x hx => hr x (by simp [hx])
  | some none :: r, some _, g, h, _, _ => by cases h
  | some (some t) :: r, none, g, h, hp, hr => by
    refine commonT_wide r (some t) g h ?_ fun x hx => hr x (by simp [hx])
    rintro p ⟨rfl⟩
    exact hr (some (some t)) (by simp) t rfl
  | some (some t) :: r, some p, g, h, hp, hr => by
    rw [commonT] at h
    split at h
    · exact commonT_wide r (some p) g h hp fun x hx => hr x (by simp [hx])
    · split at h
      · refine commonT_wide r (some t) g h ?_ fun x hx => hr x (by simp [hx])
        rintro p ⟨rfl⟩
        exact hr (some (some t)) (by simp) t rfl
      · cases h; trivial

theorem rtype_wide {v : Val} {t : GT} (h : rtype v = some t) : Wide t := by
  cases v <;> simp only [rtype] at h
  case arr vs =>
    split at h
    · cases h; trivial
    · obtain ⟨_, _, rfl⟩ := Option.map_eq_some_iff.1 h; trivial
  case map es =>
    split at h
    · cases h; trivial
    · simp only [Option.bind_eq_some_iff] at h
      obtain ⟨_, _, _, _, _, _, h⟩ := h
      rw [(mapOf_eq h).2]; trivial
  all_goals (cases h; simp [Wide])

mutual
/-- A value that is equal to another one has a place where that has one. -/
theorem eq_takes : ∀ (w v : Val) (g : GT), eq w v = true → WF w → WF v → rtype w = some g → Takes g v
  | .nil, v, g, h, _, _, hr => by cases hr; trivial
  | .bool b, v, g, h, _, _, hr => by cases hr; cases v <;> simp [eq] at h; exact ⟨_, rfl⟩
  | .int b, v, g, h, _, _, hr => by cases hr; cases v <;> simp [eq] at h; exact ⟨rfl, _, rfl⟩
  | .float b, v, g, h, _, _, hr => by cases hr; cases v <;> simp [eq] at h; exact ⟨_, rfl⟩
  | .str b, v, g, h, _, _, hr => by cases hr; cases v <;> simp [eq] at h; exact ⟨_, rfl⟩
  | .bin b, v, g, h, _, _, hr => by cases hr; cases v <;> simp [eq] at h; exact .inl ⟨rfl, _, rfl⟩
  | .time b, v, g, h, _, _, hr => by cases hr; cases v <;> simp [eq] at h; exact ⟨_, rfl⟩
  | .regexp b, v, g, h, _, _, hr => by cases hr; cases v <;> simp [eq] at h; exact ⟨rfl, _, rfl⟩
  | .sens b, v, g, h, _, _, hr => by cases hr; cases v <;> simp [eq] at h; rfl
  | .entry k x, v, g, h, _, _, hr => by cases hr; cases v <;> simp [eq] at h; rfl
  | .arr ws, v, g, h, hw, hv, hr => by
    cases v <;> simp only [eq, Bool.false_eq_true] at h
    rename_i vs
    rw [rtype] at hr
    rw [WF] at hw hv
    split at hr
    · rename_i he
      cases hr
      refine .inr ⟨by simp, vs, rfl, fun x _ => trivial⟩
    · obtain ⟨e, he, rfl⟩ := Option.map_eq_some_iff.1 hr
      obtain ⟨ts, hts, hc⟩ := Option.bind_eq_some_iff.1 he
      have h1 : commonT none (ws.map valRT) = .of e := by rw [rtypes_some hts, common_commonT, hc]; rfl
      have hwide : Wide e := by
        refine commonT_wide _ none e h1 (by simp) ?_
        intro r hr t ht
        obtain ⟨x, _, rfl⟩ := List.mem_map.1 hr
        unfold valRT at ht
        obtain ⟨t', h', rfl⟩ : ∃ t', rtype x = some t' ∧ t' = t := by
          cases hx : rtype x <;> rw [hx] at ht <;> cases ht; exact ⟨_, rfl, rfl⟩
        exact rtype_wide h'
      refine .inr ⟨(by rintro rfl; cases hwide), vs, rfl, ?_⟩
      intro x hx
      obtain ⟨w, hw', hxw⟩ := eq_takesAll ws vs h ((WFs_iff _).1 hw) ((WFs_iff _).1 hv) x hx
      refine commonT_takes h1 (by intro r hr; obtain ⟨y, _, rfl⟩ := List.mem_map.1 hr; exact valRT_nn y) ⟨valRT w, List.mem_map_of_mem hw', ?_⟩
      intro t ht
      unfold valRT at ht
      cases hx : rtype w <;> rw [hx] at ht <;> cases ht
      exact hxw _ hx
  | .map ws, v, g, h, hw, hv, hr => by
    obtain ⟨es, rfl, bs, hb, hf⟩ := eq_map hw hv h
    rw [rtype] at hr
    split at hr
    · rename_i he
      cases hr
      exact ⟨rfl, es, rfl, fun x _ => ⟨trivial, trivial⟩⟩
    · obtain ⟨ts, hts, hr⟩ := Option.bind_eq_some_iff.1 hr
      obtain ⟨k, hk, hr⟩ := Option.bind_eq_some_iff.1 hr
      obtain ⟨u, hu, hr⟩ := Option.bind_eq_some_iff.1 hr
      obtain ⟨hc, rfl⟩ := mapOf_eq hr
      obtain ⟨h1, h2⟩ := rtypeEntries_some hts
      have hk' : commonT none (ws.map fun e => valRT e.1) = .of k := by rw [h1, common_commonT, hk]; rfl
      have hu' : commonT none (ws.map fun e => valRT e.2) = .of u := by rw [h2, common_commonT, hu]; rfl
      refine ⟨hc, es, rfl, ?_⟩
      intro x hx
      have hwe : ∀ e ∈ ws, WF e.1 ∧ WF e.2 := by rw [WF] at hw; exact (WFes_iff _).1 hw.1
      have hve : ∀ e ∈ es, WF e.1 ∧ WF e.2 := by rw [WF] at hv; exact (WFes_iff _).1 hv.1
      obtain ⟨w, hw', hx1, hx2⟩ := eq_takesEntries ws bs hf hwe (fun e he => hve e (hb.mem_iff.1 he)) x (hb.mem_iff.2 hx)
      constructor
      · refine commonT_takes hk' (by intro r hr; obtain ⟨y, _, rfl⟩ := List.mem_map.1 hr; exact valRT_nn _) ⟨valRT w.1, List.mem_map.2 ⟨w, hw', rfl⟩, ?_⟩
        intro t ht
        unfold valRT at ht
        cases hx : rtype w.1 <;> rw [hx] at ht <;> cases ht
        exact hx1 _ hx
      · refine commonT_takes hu' (by intro r hr; obtain ⟨y, _, rfl⟩ := List.mem_map.1 hr; exact valRT_nn _) ⟨valRT w.2, List.mem_map.2 ⟨w, hw', rfl⟩, ?_⟩
        intro t ht
        unfold valRT at ht
        cases hx : rtype w.2 <;> rw [hx] at ht <;> cases ht
        exact hx2 _ hx

theorem eq_takesAll : ∀ (ws vs : List Val), eqSlice ws vs = true → (∀ w ∈ ws, WF w) → (∀ v ∈ vs, WF v) →
    ∀ v ∈ vs, ∃ w ∈ ws, ∀ t, rtype w = some t → Takes t v
  | [], [], _, _, _, v, hv => by simp at hv
  | [], _ :: _, h, _, _, _, _ => by simp [eqSlice] at h
  | _ :: _, [], h, _, _, _, _ => by simp [eqSlice] at h
  | w :: ws, x :: vs, h, hw, hv, v, hm => by
    rw [eqSlice, Bool.and_eq_true] at h
    rcases List.mem_cons.1 hm with rfl | hm
    · exact ⟨w, by simp, fun t ht => eq_takes w v t h.1 (hw w (by simp)) (hv v (by simp)) ht⟩
    · obtain ⟨y, hy, h'⟩ := eq_takesAll ws vs h.2 (fun w hx => hw w (by simp [hx])) (fun w hx => hv w (by simp [hx])) v hm
      exact ⟨y, by simp [hy], h'⟩

theorem eq_takesEntries : ∀ (ws vs : List (Val × Val)), List.Forall₂ REnt ws vs → (∀ w ∈ ws, WF w.1 ∧ WF w.2) → (∀ v ∈ vs, WF v.1 ∧ WF v.2) →
    ∀ v ∈ vs, ∃ w ∈ ws, (∀ t, rtype w.1 = some t → Takes t v.1) ∧ ∀ t, rtype w.2 = some t → Takes t v.2
  | [], vs, h, _, _, v, hv => by cases h; simp at hv
  | (k, w) :: ws, vs, h, hw, hv, v, hm => by
    cases h with
    | @cons _ x _ vs h1 h2 =>
    rcases List.mem_cons.1 hm with rfl | hm
    · have a := hw (k, w) (by simp)
      have b := hv v (by simp)
      exact ⟨(k, w), by simp, fun t ht => eq_takes k v.1 t h1.1 a.1 b.1 ht, fun t ht => eq_takes w v.2 t h1.2 a.2 b.2 ht⟩
    · obtain ⟨y, hy, h'⟩ := eq_takesEntries ws vs h2 (fun w hx => hw w (by simp [hx])) (fun w hx => hv w (by simp [hx])) v hm
      exact ⟨y, by simp [hy], h'⟩
end

end Verif.Reflect
