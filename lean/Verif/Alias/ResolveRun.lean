import Verif.Alias.ResolveInv
/-! # What resolving does -/
set_option autoImplicit false
set_option linter.unusedVariables false
set_option linter.unusedSimpArgs false
set_option linter.unusedSectionVars false
namespace Verif.Alias.Res

variable {get : Name → Option Nat} {H0 : Heap}

/-- The kid at this place is what the original one stands for. -/
def DoneAt (get : Name → Option Nat) (H0 H : Heap) (a i : Nat) : Prop :=
  (H a).kids[i]? = ((H0 a).kids.map (standsFor get H0))[i]?

def Full (get : Name → Option Nat) (H0 H : Heap) (a : Nat) : Prop :=
  (H a).kids = (H0 a).kids.map (standsFor get H0) ∧ ∀ x, x ∈ (H0 a).kids → Known get H0 x

def Mono (get : Name → Option Nat) (H0 H H' : Heap) (B : Nat → Prop) : Prop :=
  ∀ a, ¬ B a → ∀ i, DoneAt get H0 H a i → DoneAt get H0 H' a i

theorem Mono.trans {H1 H2 H3 : Heap} {B : Nat → Prop} (h : Mono get H0 H1 H2 B) (h' : Mono get H0 H2 H3 B) : Mono get H0 H1 H3 B :=
  fun a ha i hi => h' a ha i (h a ha i hi)

theorem Mono.full {H H' : Heap} {B : Nat → Prop} (h : Mono get H0 H H' B) {a : Nat} (ha : ¬ B a) (hf : Full get H0 H a) : Full get H0 H' a :=
  ⟨List.ext_getElem? fun i => h a ha i (by unfold DoneAt; rw [hf.1]), hf.2⟩

/-- States on the way: each has types between and empty ones, and differs only at places of `R`. -/
def Trace (get : Name → Option Nat) (H0 : Heap) (R : Nat → Prop) (s s' : St) : Prop :=
  (∃ gs, s'.past = s.past ++ gs ∧ ∀ G, G ∈ gs → (∃ B', Ok get H0 G B') ∧ ∀ a, ¬ R a → G a = s.heap a) ∧
  ∀ a, ¬ R a → s'.heap a = s.heap a

theorem Trace.refl {R : Nat → Prop} (s : St) : Trace get H0 R s s := ⟨⟨[], by simp⟩, fun _ _ => rfl⟩

theorem Trace.trans {R : Nat → Prop} {s1 s2 s3 : St} (h : Trace get H0 R s1 s2) (h' : Trace get H0 R s2 s3) :
    Trace get H0 R s1 s3 := by
  obtain ⟨⟨g1, e1, f1⟩, k1⟩ := h
  obtain ⟨⟨g2, e2, f2⟩, k2⟩ := h'
  refine ⟨⟨g1 ++ g2, by rw [e2, e1, List.append_assoc], fun G hG => ?_⟩, fun a ha => (k2 a ha).trans (k1 a ha)⟩
  rcases List.mem_append.mp hG with hG | hG
  · exact f1 G hG
  · exact ⟨(f2 G hG).1, fun a ha => ((f2 G hG).2 a ha).trans (k1 a ha)⟩

theorem Trace.write {R B' : Nat → Prop} {s : St} {p : Nat} (nd : Node) (hok : Ok get H0 s.heap B') (hp : R p) :
    Trace get H0 R s (s.write p nd) := by
  refine ⟨⟨[s.heap], rfl, fun G hG => ?_⟩, fun a ha => ?_⟩
  · rw [List.mem_singleton.mp hG]; exact ⟨⟨B', hok⟩, fun _ _ => rfl⟩
  · have : a ≠ p := fun h => ha (h ▸ hp)
    simp [St.write, upd, this]

/-- What a call comes to that goes through `ts`, whose results are to be `qs` -/
def Post (get : Name → Option Nat) (H0 : Heap) (R B : Nat → Prop) (s : St) (ts : List Nat) {α : Type} (good : α → Prop) : Out α → Prop
  | .ret s' x => Ok get H0 s'.heap B ∧ good x ∧ (∀ t, t ∈ ts → Known get H0 t) ∧ Mono get H0 s.heap s'.heap B ∧
      (∀ t, t ∈ ts → ∀ a, Path H0 B t a → Full get H0 s'.heap a) ∧ Trace get H0 R s s'
  | .panic s' => (∀ S, S anyT → Safe get H0 S → ∃ t, t ∈ ts ∧ ¬ S t) ∧
      (∃ B' : Nat → Prop, Ok get H0 s'.heap B' ∧ (∀ a, B a → B' a) ∧ ∀ S, S anyT → Safe get H0 S → ∀ a, S a → B' a → B a) ∧ Trace get H0 R s s'
  | .more => True

def RepOk (get : Name → Option Nat) (H0 : Heap) (R : Nat → Prop) (rep : St → Nat → Out Nat) : Prop :=
  ∀ s p B, Ok get H0 s.heap B → R p → Post get H0 R B s [p] (fun q => q = standsFor get H0 p) (rep s p)

theorem slice_post {R : Nat → Prop} {rep : St → Nat → Out Nat} (hr : RepOk get H0 R rep) (ts : List Nat) (s : St) (B : Nat → Prop)
    (hok : Ok get H0 s.heap B) (hR : ∀ t, t ∈ ts → R t) :
    Post get H0 R B s ts (fun qs => qs = ts.map (standsFor get H0)) (resolveSlice rep s ts) := by
  induction ts generalizing s with
  | nil => exact ⟨hok, rfl, by simp, fun a _ i h => h, by simp, .refl s⟩
  | cons t ts ih =>
    have h1 := hr s t B hok (hR t (by simp))
    simp only [resolveSlice]
    cases e1 : rep s t with
    | more => trivial
    | panic s1 =>
      rw [e1] at h1
      obtain ⟨p1, p2, p3⟩ := h1
      refine ⟨fun S hS hs => ?_, p2, p3⟩
      obtain ⟨t', ht', hn⟩ := p1 S hS hs
      exact ⟨t', by simp at ht'; simp [ht'], hn⟩
    | ret s1 q =>
      rw [e1] at h1
      obtain ⟨ok1, g1, k1, m1, f1, t1⟩ := h1
      have h2 := ih s1 ok1 (fun t' ht' => hR t' (by simp [ht']))
      simp only [Out.bind]
      cases e2 : resolveSlice rep s1 ts with
      | more => trivial
      | panic s2 =>
        rw [e2] at h2
        obtain ⟨p1, p2, p3⟩ := h2
        refine ⟨fun S hS hs => ?_, p2, t1.trans p3⟩
        obtain ⟨t', ht', hn⟩ := p1 S hS hs
        exact ⟨t', by simp [ht'], hn⟩
      | ret s2 qs =>
        rw [e2] at h2
        obtain ⟨ok2, g2, k2, m2, f2, t2⟩ := h2
        refine ⟨ok2, ?_, ?_, m1.trans m2, ?_, t1.trans t2⟩
        · simp [g1, g2]
        · intro t' ht'
          rcases List.mem_cons.mp ht' with rfl | ht'
          · exact k1 t' (by simp)
          · exact k2 t' ht'
        · intro t' ht' a hp
          rcases List.mem_cons.mp ht' with rfl | ht'
          · exact m2.full hp.last (f1 t' (by simp) a hp)
          · exact f2 t' ht' a hp

theorem closed_current {R : Nat → Prop} (hany : R anyT) (hcl : Closed get H0 R) {H : Heap} {B : Nat → Prop} (hok : Ok get H0 H B) {p : Nat} (hp : R p) :
    ∀ y, y ∈ (H p).kids → R y := by
  intro y hy
  rcases hok.kids_mem p y hy with ⟨x, hx, h⟩ | h
  · have hx' : R x := by
      refine hcl.parts p hp x ?_
      unfold Node.kids at hx
      split at hx
      · simp at hx
      · exact hx
    rcases h with rfl | rfl
    · exact hx'
    · by_cases ha : IsAlias (H0 x)
      · obtain ⟨n, hn⟩ := ha
        cases hg : get n with
        | none => rw [stands_unknown hn hg]; exact hx'
        | some q => rw [stands_alias hn hg]; exact hcl.names x n q hx' hn hg
      · rw [stands_nonalias ha]; exact hx'
  · rw [h]; exact hany

theorem write_heap_same {H : Heap} {p : Nat} {nd : Node} : upd H p nd p = nd := by simp [upd]

theorem write_heap_other {H : Heap} {p a : Nat} {nd : Node} (h : a ≠ p) : upd H p nd a = H a := by simp [upd, h]

/-- Emptying `p` -/
theorem ok_blank {H : Heap} {B : Nat → Prop} (hok : Ok get H0 H B) {p : Nat} (hb : isBox (H0 p) = true) :
    Ok get H0 (upd H p (blank (H p))) fun z => B z ∨ z = p := by
  intro a
  by_cases ha : a = p
  · subst ha
    refine ⟨fun _ => ⟨hb, ?_⟩, fun h => absurd (Or.inr rfl) h⟩
    rw [write_heap_same, hok.blank a hb]
  · refine ⟨fun h => ?_, fun h => ?_⟩
    · rw [write_heap_other ha]
      exact (hok a).1 (h.resolve_right ha)
    · obtain ⟨ys, hf, he⟩ := (hok a).2 fun hB => h (Or.inl hB)
      exact ⟨ys, hf, by rw [write_heap_other ha]; exact he⟩

theorem kids_fits_box {nd : Node} : Fits nd nd.kids := rfl

/-- Filling `p` again -/
theorem ok_fill (hwf : WF H0) (hc : NoChain get H0) {H H2 : Heap} {B : Nat → Prop} (hok : Ok get H0 H B) {p : Nat} (hb : isBox (H0 p) = true)
    (hok2 : Ok get H0 H2 fun z => B z ∨ z = p) :
    Ok get H0 (upd H2 p ((H p).withKids ((H p).kids.map (standsFor get H0)))) B ∧
    (¬ B p → (H p).withKids ((H p).kids.map (standsFor get H0)) = (H0 p).withKids ((H0 p).kids.map (standsFor get H0))) := by
  have hp : ¬ B p → (H p).withKids ((H p).kids.map (standsFor get H0)) = (H0 p).withKids ((H0 p).kids.map (standsFor get H0)) := by
    intro hB
    have hbt := (hok p).2 hB
    have e := map_stands hc hbt.kids
    rw [e]
    rw [hbt.eq, withKids_withKids hbt.len (by simp [Fits])]
  refine ⟨fun a => ?_, hp⟩
  by_cases ha : a = p
  · subst ha
    rw [write_heap_same]
    refine ⟨fun hB => ⟨hb, ?_⟩, fun hB => ?_⟩
    · have h1 := ((hok a).1 hB).2
      rw [h1]
      have : (blank (H0 a)).kids.map (standsFor get H0) = (blank (H0 a)).kids := by
        conv => rhs; rw [← List.map_id (blank (H0 a)).kids]
        refine List.map_congr_left fun x hx => ?_
        rw [blank_kids hb x hx]
        exact stands_nonalias (by rw [hwf.any]; rintro ⟨n, hn⟩; cases hn)
      rw [this, withKids_kids]
    · rw [hp hB] 
      refine ⟨_, ?_, write_heap_same⟩
      generalize (H0 a).kids = l
      induction l with
      | nil => exact .nil
      | cons x l ih => exact .cons (Or.inr rfl) ih
  · refine ⟨fun hB => ?_, fun hB => ?_⟩
    · rw [write_heap_other ha]; exact (hok2 a).1 (Or.inl hB)
    · obtain ⟨ys, hf, he⟩ := (hok2 a).2 fun h => h.elim hB ha
      exact ⟨ys, hf, by rw [write_heap_other ha]; exact he⟩

end Verif.Alias.Res
