import Verif.Alias.ResolveRun
/-! # What one call of `Replace` does -/
set_option autoImplicit false
set_option linter.unusedVariables false
set_option linter.unusedSimpArgs false
set_option linter.unusedSectionVars false
namespace Verif.Alias.Res

variable {get : Name → Option Nat} {H0 : Heap}

theorem fin_ret {s s' : St} {p : Nat} {nd : Node} {qs : List Nat} {u : Unit} (h : fin s p nd qs = .ret s' u) : s' = s.write p (nd.withKids qs) := by
  unfold fin at h
  split at h
  · unfold checkExactKeys at h
    split at h
    · cases h; rfl
    · cases h
  · cases h; rfl

theorem fin_more {s : St} {p : Nat} {nd : Node} {qs : List Nat} : fin s p nd qs ≠ .more := by
  unfold fin checkExactKeys
  split
  · split <;> simp
  · simp

theorem fin_panic {s s' : St} {p : Nat} {nd : Node} {qs : List Nat} (h : fin s p nd qs = .panic s') :
    s' = s.write p (nd.withKids qs) ∧ ∃ es, nd = .struct es ∧ ∃ e, e ∈ pairUp qs ∧ isExact (s'.heap e.1) = false := by
  unfold fin at h
  split at h
  · rename_i es
    unfold checkExactKeys at h
    split at h
    · cases h
    · rename_i hn
      cases h
      refine ⟨rfl, es, rfl, ?_⟩
      simpa using hn
  · cases h

theorem struct_of_withKids {nd : Node} {ys : List Nat} {es : List (Nat × Nat)} (h : Fits nd ys) (he : nd.withKids ys = .struct es) :
    ∃ es0, nd = .struct es0 := by
  unfold Fits at h
  cases nd with
  | arr t | not t | typeOf t | exactArr t | exactMap t =>
    match ys, h with
    | [_], _ => cases he
  | map k v =>
    match ys, h with
    | [_, _], _ => cases he
  | struct es0 => exact ⟨es0, rfl⟩
  | _ => cases he

theorem pairUp_map (f : Nat → Nat) (es : List (Nat × Nat)) : pairUp ((flat es).map f) = es.map fun e => (f e.1, f e.2) := by
  induction es with
  | nil => rfl
  | cons e es ih => obtain ⟨k, v⟩ := e; rw [flat_cons]; simp [pairUp, ih]

theorem full_of_eq {H : Heap} {a : Nat} (h : H a = (H0 a).withKids ((H0 a).kids.map (standsFor get H0))) :
    (H a).kids = (H0 a).kids.map (standsFor get H0) := by
  rw [h, kids_withKids (by simp [Fits])]

theorem path_alias_full {H : Heap} {B B' : Nat → Prop} (hok : Ok get H0 H B) {x a : Nat} (hp : Path H0 B' x a) (ha : IsAlias (H0 x)) :
    Full get H0 H a := by
  have := hp.alias ha
  subst this
  obtain ⟨n, hn⟩ := ha
  have h2 := (hok.alias a n).2 hn
  constructor
  · rw [h2, hn]; rfl
  · intro x hx; rw [hn] at hx; simp [Node.kids, Node.parts] at hx

/-- A type that is emptied and filled again -/
theorem box_post {R : Nat → Prop} (hwf : WF H0) (hc : NoChain get H0) (hany : R anyT) (hcl : Closed get H0 R) {rep : St → Nat → Out Nat}
    (hr : RepOk get H0 R rep) (s : St) (p : Nat) (B : Nat → Prop) (hok : Ok get H0 s.heap B) (hp : R p) (hb : isBox (s.heap p) = true) :
    Post get H0 R B s [p] (fun _ => True) (resolve rep s p (s.heap p)) := by
  have hb0 : isBox (H0 p) = true := by rw [← hok.box]; exact hb
  have hna : ¬ IsAlias (H0 p) := by rintro ⟨n, hn⟩; rw [hn] at hb0; simp [isBox] at hb0
  rw [resolve_box rep s p _ hb]
  have ok1 : Ok get H0 (s.write p (blank (s.heap p))).heap fun z => B z ∨ z = p := ok_blank hok hb0
  have tr0 : Trace get H0 R s (s.write p (blank (s.heap p))) := .write _ hok hp
  have h := slice_post hr (s.heap p).kids (s.write p (blank (s.heap p))) _ ok1 (closed_current hany hcl hok hp)
  cases e : resolveSlice rep (s.write p (blank (s.heap p))) (s.heap p).kids with
  | more => trivial
  | panic s2 =>
    rw [e] at h
    obtain ⟨p1, ⟨B', q1, q2, q3⟩, p3⟩ := h
    have hpS : ∀ S, S anyT → Safe get H0 S → ¬ S p := by
      intro S hS hs hpS
      obtain ⟨t, ht, hn⟩ := p1 S hS hs
      exact hn (closed_current hS hs.toClosed hok hpS t ht)
    refine ⟨fun S hS hs => ⟨p, by simp, hpS S hS hs⟩, ⟨B', q1, fun a ha => q2 a (Or.inl ha), fun S hS hs a ha hB' => ?_⟩, tr0.trans p3⟩
    rcases q3 S hS hs a ha hB' with h | h
    · exact h
    · rw [h] at ha; exact absurd ha (hpS S hS hs)
  | ret s2 qs =>
    rw [e] at h
    obtain ⟨ok2, g2, k2, m2, f2, t2⟩ := h
    simp only [Out.bind]
    have hfill := ok_fill hwf hc hok hb0 ok2
    have tr2 : Trace get H0 R s (s2.write p ((s.heap p).withKids qs)) := (tr0.trans t2).trans (Trace.write _ ok2 hp)
    rw [g2] at tr2 
    cases e2 : fin s2 p (s.heap p) qs with
    | more => exact absurd e2 fin_more
    | panic s3 =>
      obtain ⟨rfl, es, hes, en, hen, hex⟩ := fin_panic e2
      rw [g2] at hex hen ⊢
      have ok3 : Ok get H0 (s2.write p ((s.heap p).withKids ((s.heap p).kids.map (standsFor get H0)))).heap B := hfill.1
      refine ⟨fun S hS hs => ⟨p, by simp, fun hpS => ?_⟩, ⟨B, ok3, fun a h => h, fun _ _ _ _ _ h => h⟩, tr2⟩
      rw [ok3.exact] at hex
      by_cases hB : B p
      · have := ((hok p).1 hB).2
        rw [hes] at hen
        have hz : es = [] := by
          rw [hes] at this
          cases h0 : H0 p <;> rw [h0] at this <;> simp [blank] at this
          · exact this
        subst hz
        simp [Node.kids, Node.parts, pairUp] at hen
      · have hk := map_stands hc ((hok p).2 hB).kids
        rw [hk] at hen
        have h0 : ∃ es0, H0 p = .struct es0 := by
          exact struct_of_withKids ((hok p).2 hB).len (((hok p).2 hB).eq.symm.trans hes)
        obtain ⟨es0, h0⟩ := h0
        rw [h0] at hen
        have : (Node.struct es0).kids = flat es0 := rfl
        rw [this, pairUp_map] at hen
        obtain ⟨e0, he0, rfl⟩ := List.mem_map.mp hen
        have := hs.keys p es0 hpS h0 e0 he0
        rw [this] at hex
        cases hex
    | ret s3 u =>
      have e3 := fin_ret e2
      subst e3
      rw [g2]
      have ok3 : Ok get H0 (s2.write p ((s.heap p).withKids ((s.heap p).kids.map (standsFor get H0)))).heap B := hfill.1
      have hfull : ¬ B p → Full get H0 (s2.write p ((s.heap p).withKids ((s.heap p).kids.map (standsFor get H0)))).heap p := by
        intro hB
        refine ⟨full_of_eq ?_, known_of ((hok p).2 hB).kids k2⟩
        show upd _ p _ p = _
        rw [write_heap_same, hfill.2 hB]
      have hother : ∀ a, a ≠ p → (s2.write p ((s.heap p).withKids ((s.heap p).kids.map (standsFor get H0)))).heap a = s2.heap a :=
        fun a ha => write_heap_other ha
      refine ⟨ok3, trivial, ?_, ?_, ?_, tr2⟩
      · intro t ht n hn
        rw [List.mem_singleton.mp ht] at hn
        exact absurd ⟨n, hn⟩ hna
      · intro a hB i hd
        by_cases ha : a = p
        · subst ha
          unfold DoneAt
          rw [(hfull hB).1]
        · unfold DoneAt
          rw [hother a ha]
          refine m2 a (fun h => h.elim hB ha) i ?_
          unfold DoneAt
          rw [show (s.write p (blank (s.heap p))).heap a = s.heap a from write_heap_other ha]
          exact hd
      · intro t ht a hpath
        rw [List.mem_singleton.mp ht] at hpath
        have hB := hpath.first
        rcases hpath.leave with rfl | ⟨x, hx, hpx⟩
        · exact hfull hB
        · have hap : a ≠ p := fun h => hpx.last (Or.inr h)
          by_cases hxa : IsAlias (H0 x)
          · exact path_alias_full ok3 hpx hxa
          · have hx' := mem_nonalias ((hok p).2 hB).kids hx hxa
            have := f2 x hx' a hpx
            exact ⟨by rw [hother a hap]; exact this.1, this.2⟩

end Verif.Alias.Res
