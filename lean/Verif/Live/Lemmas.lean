import Verif.Live.Spec
set_option autoImplicit false
set_option linter.unusedVariables false
set_option linter.unusedSimpArgs false
namespace Verif.Live

/-- Frozen arrays stay what they are. -/
def Keeps (h h' : Heap) : Prop := ∀ (p : Nat) (es : List Ref), h[p]? = some ⟨true, es⟩ → h'[p]? = some ⟨true, es⟩

theorem Keeps.rfl {h : Heap} : Keeps h h := fun _ _ e => e
theorem Keeps.trans {a b c : Heap} (x : Keeps a b) (y : Keeps b c) : Keeps a c := fun p es e => y p es (x p es e)
theorem Keeps.push {h : Heap} (o : Obj) : Keeps h (h ++ [o]) := fun p es e => by
  have := (List.getElem?_eq_some_iff.1 e).1
  rw [List.getElem?_append_left this]; exact e
theorem Keeps.set {h : Heap} {p : Nat} {o o' : Obj} (hp : h[p]? = some o) (hf : o.frozen = false) : Keeps h (h.set p o') := fun q es e => by
  by_cases hq : p = q
  · subst hq; rw [hp] at e; cases e; exact absurd hf (by simp)
  · rw [List.getElem?_set_ne hq]; exact e

theorem eachHeap_keeps {f : Ref → Heap → Option Heap} (hf : ∀ r h h', f r h = some h' → Keeps h h') :
    ∀ (rs : List Ref) (h h' : Heap), eachHeap f rs h = some h' → Keeps h h'
  | [], h, h', e => by cases e; exact .rfl
  | r :: rs, h, h', e => by
    simp only [eachHeap, Option.bind_eq_some_iff] at e
    obtain ⟨x, e1, e2⟩ := e
    exact (hf _ _ _ e1).trans (eachHeap_keeps hf rs _ _ e2)

theorem mapHeap_keeps {f : Ref → Heap → Option (Ref × Heap)} (hf : ∀ r h x, f r h = some x → Keeps h x.2) :
    ∀ (rs : List Ref) (h : Heap) (x : List Ref × Heap), mapHeap f rs h = some x → Keeps h x.2
  | [], h, x, e => by cases e; exact .rfl
  | r :: rs, h, x, e => by
    simp only [mapHeap, Option.bind_eq_some_iff, Option.map_eq_some_iff] at e
    obtain ⟨y, e1, z, e2, rfl⟩ := e
    exact (hf _ _ _ e1).trans (mapHeap_keeps hf rs y.2 z e2)

theorem freeze_keeps : ∀ (n : Nat) (r : Ref) (h h' : Heap), freeze n r h = some h' → Keeps h h'
  | n, .atom i, h, h', e => by cases n <;> (cases e; exact .rfl)
  | n, .type p, h, h', e => by cases n <;> (cases e; exact .rfl)
  | 0, .obj p, h, h', e => by cases e
  | n + 1, .obj p, h, h', e => by
    simp only [freeze] at e
    cases ho : h[p]? with
    | none => rw [ho] at e; cases e
    | some o =>
      rw [ho] at e
      dsimp only at e
      split at e
      · cases e; exact .rfl
      · rename_i hf
        exact (Keeps.set ho (by simpa using hf)).trans (eachHeap_keeps (freeze_keeps n) _ _ _ e)

theorem copy_keeps (fr : Bool) : ∀ (n : Nat) (r : Ref) (h : Heap) (x : Ref × Heap), copy fr n r h = some x → Keeps h x.2
  | n, .atom i, h, x, e => by cases n <;> (cases e; exact .rfl)
  | n, .type p, h, x, e => by cases n <;> (cases e; exact .rfl)
  | 0, .obj p, h, x, e => by cases e
  | n + 1, .obj p, h, x, e => by
    simp only [copy] at e
    cases ho : h[p]? with
    | none => rw [ho] at e; cases e
    | some o =>
      rw [ho] at e
      dsimp only at e
      split at e
      · cases e; exact .rfl
      · simp only [Option.map_eq_some_iff] at e
        obtain ⟨y, e1, rfl⟩ := e
        exact (mapHeap_keeps (copy_keeps fr n) _ _ _ e1).trans (.push _)

theorem change_keeps {h : Heap} {p : Nat} {f : List Ref → Option (List Ref)} {x : Out × Heap} (e : change h p f = some x) : Keeps h x.2 := by
  simp only [change] at e
  cases ho : h[p]? with
  | none => rw [ho] at e; cases e
  | some o =>
    rw [ho] at e
    dsimp only at e
    split at e
    · cases e; exact .rfl
    · rename_i hf
      split at e
      · cases e; exact .rfl
      · cases e; exact .set ho (by simpa using hf)

theorem exec_keeps {n : Nat} {h : Heap} {op : Op} {x : Out × Heap} (e : exec n h op = some x) : Keeps h x.2 := by
  cases op with
  | values fr xs =>
    simp only [exec] at e
    split at e
    · simp only [Option.map_eq_some_iff] at e
      obtain ⟨y, e1, rfl⟩ := e
      exact (mapHeap_keeps (copy_keeps true n) _ _ _ e1).trans (.push _)
    · cases e; exact .push _
  | tuple xs => cases e; exact .push _
  | add p x => simp only [exec] at e; exact change_keeps e
  | set p i x => simp only [exec] at e; exact change_keeps e
  | remove p i => simp only [exec] at e; exact change_keeps e
  | freeze p =>
    simp only [exec, Option.map_eq_some_iff] at e
    obtain ⟨y, e1, rfl⟩ := e
    exact freeze_keeps _ _ _ _ e1
  | copy fr p =>
    simp only [exec, Option.map_eq_some_iff] at e
    obtain ⟨y, e1, rfl⟩ := e
    exact copy_keeps _ _ _ _ _ e1

theorem run_keeps {n : Nat} : ∀ {ops : List Op} {h h' : Heap}, run n h ops = some h' → Keeps h h'
  | [], h, h', e => by cases e; exact .rfl
  | op :: ops, h, h', e => by
    simp only [run, Option.bind_eq_some_iff] at e
    obtain ⟨x, e1, e2⟩ := e
    exact (exec_keeps e1).trans (run_keeps e2)

theorem Solid.keeps {h h' : Heap} (hk : Keeps h h') {r : Ref} (hs : Solid h r) : Solid h' r := by
  induction hs with
  | atom i => exact .atom i
  | obj e _ ih => exact .obj (hk _ _ e) ih
  | type e _ ih => exact .type (hk _ _ e) ih

theorem Solid.has {h h' : Heap} (hk : Keeps h h') : ∀ {r : Ref} {t : Tree}, Has h r t → Solid h r → Has h' r t := by
  refine fun {r t} ht => Has.rec (motive_1 := fun r t _ => Solid h r → Has h' r t) (motive_2 := fun rs ts _ => (∀ e ∈ rs, Solid h e) → HasAll h' rs ts)
    (fun i _ => .atom i) ?_ ?_ (fun _ => .nil) ?_ ht
  · intro p o ts e _ ih hs
    cases hs with
    | obj e' he => rw [e] at e'; cases e'; exact .obj (hk _ _ e) (ih he)
  · intro p o ts e _ ih hs
    cases hs with
    | type e' he => rw [e] at e'; cases e'; exact .type (hk _ _ e) (ih he)
  · intro r rs t ts _ _ i1 i2 hs
    exact .cons (i1 (hs _ (.head _))) (i2 fun e he => hs e (.tail _ he))

/-! ## Equality and hash codes are of the contents -/

theorem allEq_of {f : Nat → Ref → Ref → Option Bool} {h : Heap} : ∀ {rs : List Ref} {ts : List Tree}, HasAll h rs ts →
    (∀ r t, r ∈ rs → Has h r t → ∀ s u, Has h s u → ∃ n₀, ∀ n ≥ n₀, ∃ b, f n r s = some b ∧ (b = true ↔ t = u)) →
    ∀ {ss : List Ref} {us : List Tree}, HasAll h ss us → rs.length = ss.length →
    ∃ n₀, ∀ n ≥ n₀, ∃ b, allEq (f n) rs ss = some b ∧ (b = true ↔ ts = us) := by
  intro rs
  induction rs with
  | nil =>
    intro ts ht _ ss us hu hl
    cases ht
    cases hu with
    | nil => exact ⟨0, fun n _ => ⟨true, rfl, by simp⟩⟩
    | cons => simp at hl
  | cons r rs ih =>
    intro ts ht hf ss us hu hl
    cases ht with
    | cons h1 h2 =>
      rename_i t ts
      cases hu with
      | nil => simp at hl
      | cons k1 k2 =>
        rename_i s ss u us
        obtain ⟨n1, e1⟩ := hf r t (.head _) h1 s u k1
        obtain ⟨n2, e2⟩ := ih h2 (fun r t hr => hf r t (.tail _ hr)) k2 (by simpa using hl)
        refine ⟨max n1 n2, fun n hn => ?_⟩
        obtain ⟨b, x1, x2⟩ := e1 n (by omega)
        obtain ⟨c, y1, y2⟩ := e2 n (by omega)
        simp only [allEq, x1, Option.bind_some]
        cases b with
        | true => exact ⟨c, by simpa using y1, by rw [y2]; simp only [List.cons.injEq]; exact ⟨fun h => ⟨x2.1 rfl, h⟩, fun h => h.2⟩⟩
        | false => exact ⟨false, by simp, by simp only [Bool.false_eq_true, List.cons.injEq, false_iff]; exact fun h => by simpa using x2.2 h.1⟩

theorem HasAll.length {h : Heap} : ∀ {rs : List Ref} {ts : List Tree}, HasAll h rs ts → rs.length = ts.length
  | [], ts, e => by cases e; rfl
  | _ :: _, ts, e => by cases e with | cons _ h2 => simp [h2.length]

theorem HasAll.of_mem {h : Heap} : ∀ {rs : List Ref} {ts : List Tree}, HasAll h rs ts → ∀ r ∈ rs, ∃ t, t ∈ ts ∧ Has h r t
  | _ :: _, _, .cons h1 h2, r, hr => by
    rcases List.mem_cons.1 hr with rfl | hr
    · exact ⟨_, .head _, h1⟩
    · obtain ⟨t, ht, hh⟩ := h2.of_mem r hr
      exact ⟨t, .tail _ ht, hh⟩

theorem has_det {h : Heap} {r : Ref} {t : Tree} (ht : Has h r t) : ∀ {u : Tree}, Has h r u → t = u := by
  refine Has.rec (motive_1 := fun r t _ => ∀ {u : Tree}, Has h r u → t = u) (motive_2 := fun rs ts _ => ∀ {us : List Tree}, HasAll h rs us → ts = us)
    ?_ ?_ ?_ ?_ ?_ ht
  · intro i u hu; cases hu; rfl
  · intro p o ts e _ ih u hu
    cases hu with
    | obj e' hh => rw [e] at e'; cases e'; rw [ih hh]
  · intro p o ts e _ ih u hu
    cases hu with
    | type e' hh => rw [e] at e'; cases e'; rw [ih hh]
  · intro us hu; cases hu; rfl
  · intro r rs t ts _ _ i1 i2 us hu
    cases hu with
    | cons k1 k2 => rw [i1 k1, i2 k2]

theorem equals_of {h : Heap} {r : Ref} {t : Tree} (ht : Has h r t) :
    ∀ s u, Has h s u → ∃ n₀, ∀ n ≥ n₀, ∃ b, equals h n r s = some b ∧ (b = true ↔ t = u) := by
  have arr : ∀ {p q : Nat} {o o' : Obj} {ts us : List Tree}, h[p]? = some o → h[q]? = some o' → HasAll h o.es ts → HasAll h o'.es us →
      (∀ r t, r ∈ o.es → Has h r t → ∀ s u, Has h s u → ∃ n₀, ∀ n ≥ n₀, ∃ b, equals h n r s = some b ∧ (b = true ↔ t = u)) →
      ∃ n₀, ∀ n ≥ n₀, ∃ b, equals h n (.obj p) (.obj q) = some b ∧ (b = true ↔ ts = us) := by
    intro p q o o' ts us e e' h1 h2 hf
    by_cases hpq : p = q
    · subst hpq
      rw [e] at e'; cases e'
      have := has_det (.obj e h1) (.obj e h2)
      cases this
      refine ⟨1, fun n hn => ⟨true, ?_, by simp⟩⟩
      obtain ⟨k, rfl⟩ : ∃ k, n = k + 1 := ⟨n - 1, by omega⟩
      simp [equals]
    · by_cases hl : o.es.length = o'.es.length
      · obtain ⟨n0, hn0⟩ := allEq_of (f := fun n => equals h n) h1 hf h2 hl
        refine ⟨n0 + 1, fun n hn => ?_⟩
        obtain ⟨k, rfl⟩ : ∃ k, n = k + 1 := ⟨n - 1, by omega⟩
        obtain ⟨b, x1, x2⟩ := hn0 k (by omega)
        exact ⟨b, by simp only [equals, if_neg hpq, e, e', if_pos hl, x1], x2⟩
      · refine ⟨1, fun n hn => ⟨false, ?_, ?_⟩⟩
        · obtain ⟨k, rfl⟩ : ∃ k, n = k + 1 := ⟨n - 1, by omega⟩
          simp only [equals, if_neg hpq, e, e', if_neg hl]
        · simp only [Bool.false_eq_true, false_iff]
          rintro rfl
          exact hl (h1.length.trans h2.length.symm)
  have off : ∀ {r s : Ref} {t u : Tree}, (∀ k, equals h (k + 1) r s = some false ∧ t ≠ u) → ∃ n₀, ∀ n ≥ n₀, ∃ b, equals h n r s = some b ∧ (b = true ↔ t = u) := by
    intro r s t u hh
    refine ⟨1, fun n hn => ⟨false, ?_, by simpa using (hh 0).2⟩⟩
    obtain ⟨k, rfl⟩ : ∃ k, n = k + 1 := ⟨n - 1, by omega⟩
    exact (hh k).1
  refine Has.rec (motive_1 := fun r t _ => ∀ s u, Has h s u → ∃ n₀, ∀ n ≥ n₀, ∃ b, equals h n r s = some b ∧ (b = true ↔ t = u))
    (motive_2 := fun rs ts _ => ∀ r t, r ∈ rs → Has h r t → ∀ s u, Has h s u → ∃ n₀, ∀ n ≥ n₀, ∃ b, equals h n r s = some b ∧ (b = true ↔ t = u))
    ?_ ?_ ?_ ?_ ?_ ht
  · intro i s u hu
    refine ⟨1, fun n hn => ?_⟩
    obtain ⟨k, rfl⟩ : ∃ k, n = k + 1 := ⟨n - 1, by omega⟩
    cases hu with
    | atom j => exact ⟨i == j, by simp [equals], by simp⟩
    | obj => exact ⟨false, by simp [equals], by simp⟩
    | type => exact ⟨false, by simp [equals], by simp⟩
  · intro p o ts e hh ih s u hu
    cases hu with
    | atom j => exact off fun k => by simp [equals]
    | obj e' h' =>
      obtain ⟨n0, hn0⟩ := arr e e' hh h' ih
      refine ⟨n0, fun n hn => ?_⟩
      obtain ⟨b, x1, x2⟩ := hn0 n hn
      exact ⟨b, x1, by rw [x2]; simp⟩
    | type => exact off fun k => by simp [equals]
  · intro p o ts e hh ih s u hu
    cases hu with
    | atom j => exact off fun k => by simp [equals]
    | obj => exact off fun k => by simp [equals]
    | type e' h' =>
      obtain ⟨n0, hn0⟩ := arr e e' hh h' ih
      refine ⟨n0 + 1, fun n hn => ?_⟩
      obtain ⟨k, rfl⟩ : ∃ k, n = k + 1 := ⟨n - 1, by omega⟩
      obtain ⟨b, x1, x2⟩ := hn0 k (by omega)
      exact ⟨b, by simpa only [equals] using x1, by rw [x2]; simp⟩
  · intro r t hr; cases hr
  · intro r rs t ts hh _ i1 i2 r' t' hr ht' s u hu
    rcases List.mem_cons.1 hr with rfl | hr
    · cases has_det hh ht'; exact i1 s u hu
    · exact i2 r' t' hr ht' s u hu

/-- The hash code of contents, as a function of them -/
theorem hashAll_congr {f g : Ref → Option (BitVec 64)} : ∀ {rs : List Ref} {acc : BitVec 64}, (∀ r ∈ rs, f r = g r) → hashAll f acc rs = hashAll g acc rs
  | [], _, _ => rfl
  | r :: rs, acc, hh => by
    simp only [hashAll, hh r (.head _)]
    cases g r with
    | none => rfl
    | some x => exact hashAll_congr fun e he => hh e (.tail _ he)

theorem solid_hash {h h' : Heap} (hk : Keeps h h') : ∀ (n : Nat) {r : Ref}, Solid h r → hashCode h' n r = hashCode h n r
  | 0, r, hs => by cases hs <;> rfl
  | n + 1, _, .atom i => rfl
  | n + 1, _, .obj e he => by
    simp only [hashCode, e, hk _ _ e]
    exact hashAll_congr fun r hr => solid_hash hk n (he r hr)
  | n + 1, _, .type e he => by
    simp only [hashCode, solid_hash hk n (.obj e he)]

theorem allEq_congr {f g : Ref → Ref → Option Bool} : ∀ {rs ss : List Ref}, (∀ r ∈ rs, ∀ s ∈ ss, f r s = g r s) → allEq f rs ss = allEq g rs ss
  | [], ss, _ => by cases ss <;> rfl
  | r :: rs, [], _ => rfl
  | r :: rs, s :: ss, hh => by
    simp only [allEq, hh r (.head _) s (.head _)]
    cases g r s with
    | none => rfl
    | some x => simp only [Option.bind_some, allEq_congr fun a ha b hb => hh a (.tail _ ha) b (.tail _ hb)]

theorem solid_equals {h h' : Heap} (hk : Keeps h h') : ∀ (n : Nat) {r s : Ref}, Solid h r → Solid h s → equals h' n r s = equals h n r s
  | 0, r, s, hr, hs => by cases hr <;> cases hs <;> rfl
  | n + 1, _, _, .atom i, hs => by cases hs <;> rfl
  | n + 1, _, _, .obj e he, .atom _ => rfl
  | n + 1, _, _, .obj e he, .type _ _ => rfl
  | n + 1, _, _, .obj e he, .obj e' he' => by
    simp only [equals, e, e', hk _ _ e, hk _ _ e']
    rw [allEq_congr fun a ha b hb => solid_equals hk n (he a ha) (he' b hb)]
  | n + 1, _, _, .type e he, .atom _ => rfl
  | n + 1, _, _, .type e he, .obj _ _ => rfl
  | n + 1, _, _, .type e he, .type e' he' => by
    simp only [equals]
    exact solid_equals hk n (.obj e he) (.obj e' he')

end Verif.Live
