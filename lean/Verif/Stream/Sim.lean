import Verif.Stream.Lemmas
/-!
# The streamer and the collector, step by step
-/
set_option autoImplicit false
set_option linter.unusedVariables false
set_option linter.unusedSimpArgs false
namespace Verif.Stream
open Verif.Value (Str)

/-! ## The view of a value -/

theorem encAll_eq (o : Options) (k : Consumer) : ∀ ts : List T, encAll o k ts = ts.map (enc o k)
  | [] => by simp [encAll]
  | t :: ts => by simp [encAll, encAll_eq o k ts]

theorem encEntries_eq (o : Options) (k : Consumer) : ∀ ts : List (T × T), encEntries o k ts = ts.map fun e => (enc o k e.1, enc o k e.2)
  | [] => by simp [encEntries]
  | (t, t') :: ts => by simp [encEntries, encEntries_eq o k ts]

theorem encFlat_eq (o : Options) (k : Consumer) : ∀ ts : List (T × T), encFlat o k ts = (flatten ts).map (enc o k)
  | [] => by simp [encFlat, flatten]
  | (t, t') :: ts => by
    have e : flatten ((t, t') :: ts) = t :: t' :: flatten ts := rfl
    simp [encFlat, encFlat_eq o k ts, e]

/-- What the collector or decoder ends up with -/
def view (D : Option Decoder) (o : Options) (k : Consumer) (t : T) : T := if D.isSome then t else enc o k t

theorem view_atom (D : Option Decoder) (o : Options) (k : Consumer) (a : Atom) : view D o k (.ofAtom a) = .ofAtom a := by
  unfold view; split
  · rfl
  · cases a <;> simp [T.ofAtom, enc]

theorem view_arr (D : Option Decoder) (o : Options) (k : Consumer) (ts : List T) :
    view D o k (.arr ts) = .arr (ts.map (view D o k)) := by
  cases D with
  | none => simp only [view, Option.isSome_none, Bool.false_eq_true, if_false, enc, encAll_eq]; rfl
  | some d =>
    simp only [view, Option.isSome_some, if_true]
    congr 1
    exact (List.map_id' ts).symm

theorem map_flatten {α β : Type} (f : α → β) : ∀ es : List (α × α), (flatten es).map f = flatten (es.map fun e => (f e.1, f e.2))
  | [] => rfl
  | e :: es => by
    show f e.1 :: f e.2 :: (flatten es).map f = f e.1 :: f e.2 :: flatten _
    rw [map_flatten f es]

theorem stringKeys_den {h : Heap} {n : Nat} : ∀ {es : List (Ref × Ref)} {ts : List (T × T)}, denEntries (den h n) es = some ts →
    ts.all (·.1.isStr) = stringKeys es
  | [], ts, hd => by
    simp only [denEntries, Option.some.injEq] at hd
    subst hd; rfl
  | (k, v) :: es, ts, hd => by
    simp only [denEntries] at hd
    cases hk : den h n k with
    | none => simp [hk] at hd
    | some t =>
      cases hv : den h n v with
      | none => simp [hk, hv] at hd
      | some t' =>
        cases hs : denEntries (den h n) es with
        | none => simp [hk, hv, hs] at hd
        | some ts' =>
          simp only [hk, hv, hs, Option.some.injEq] at hd
          subst hd
          have ih := stringKeys_den hs
          rw [List.all_cons, ih]
          cases k with
          | atom a =>
            have : t = T.ofAtom a := by cases n <;> simp [den] at hk <;> exact hk.symm
            subst this
            cases a <;> rfl
          | obj p =>
            have h1 : t.isStr = false := by
              cases ht : t with
              | str s => rw [ht] at hk; exact absurd (den_str.mp hk) (by simp)
              | _ => rfl
            show (t.isStr && stringKeys es) = (false && stringKeys es)
            rw [h1]

theorem view_plain (D : Option Decoder) (o : Options) (k : Consumer) (ts : List (T × T)) (hp : (k.complexKeys || ts.all (·.1.isStr)) = true) :
    view D o k (.map ts) = .map (ts.map fun e => (view D o k e.1, view D o k e.2)) := by
  cases D with
  | none => simp only [view, Option.isSome_none, Bool.false_eq_true, if_false, enc, encEntries_eq, hp, if_true]
  | some d =>
    simp only [view, Option.isSome_some, if_true]
    congr 1
    exact (List.map_id' ts).symm

/-! ## Emission of a sequence -/

def emitSeq (o : Options) (k : Consumer) (h : Heap) (m : Nat) : St → List (Nat × Ref) → Out (St × List Ev)
  | s, [] => .ok (s, [])
  | s, (l, r) :: rs =>
    match emit o k h m l s r with
    | .panic => .panic
    | .deep => .deep
    | .ok (s, e) =>
      match emitSeq o k h m s rs with
      | .panic => .panic
      | .deep => .deep
      | .ok (s, es) => .ok (s, e :: es)

theorem emitAll_seq (o : Options) (k : Consumer) (h : Heap) (m l : Nat) : ∀ (rs : List Ref) (s : St),
    emitAll (emit o k h m l) s rs = emitSeq o k h m s (rs.map fun r => (l, r))
  | [], s => rfl
  | r :: rs, s => by
    simp only [emitAll, emitSeq, List.map_cons]
    cases emit o k h m l s r with
    | panic => rfl
    | deep => rfl
    | ok x => simp only [emitAll_seq o k h m l rs]; rfl

theorem emitEntries_seq (o : Options) (k : Consumer) (h : Heap) (m lk lv : Nat) : ∀ (es : List (Ref × Ref)) (s : St),
    emitEntries (emit o k h m lk) (emit o k h m lv) s es = emitSeq o k h m s (es.flatMap fun e => [(lk, e.1), (lv, e.2)])
  | [], s => rfl
  | (a, b) :: es, s => by
    have e : ((a, b) :: es).flatMap (fun e => [(lk, e.1), (lv, e.2)]) = (lk, a) :: (lv, b) :: es.flatMap fun e => [(lk, e.1), (lv, e.2)] := rfl
    rw [e]
    simp only [emitEntries, emitSeq]
    cases emit o k h m lk s a with
    | panic => rfl
    | deep => rfl
    | ok x =>
      simp only
      cases emit o k h m lv x.1 b with
      | panic => rfl
      | deep => rfl
      | ok y =>
        simp only [emitEntries_seq o k h m lk lv es]
        cases emitSeq o k h m y.1 (es.flatMap fun e => [(lk, e.1), (lv, e.2)]) <;> rfl

/-! ## States -/

/-- Objects of which only one place may refer to -/
def sel (D : Option Decoder) (k : Consumer) (x : Obj) : Bool := D.isSome && isRich k x

def Rich (D : Option Decoder) (k : Consumer) (h : Heap) (p : Nat) : Prop := ∃ x, h p = some x ∧ sel D k x = true

/-- The value at index `i` is the object `p`. -/
def Fin (o : Options) (k : Consumer) (D : Option Decoder) (h : Heap) (c : Coll) (p i : Nat) : Prop :=
  ∃ t m r, den h m (.obj p) = some t ∧ c.values[i]? = some r ∧ Is c.heap r (view D o k t)

structure Link (s : St) (c : Coll) : Prop where
  idx : s.refIndex = c.values.length
  strs : ∀ x i, (Key.str x, i) ∈ s.values → c.values[i]? = some (.atom (.str x))

def Done (o : Options) (k : Consumer) (D : Option Decoder) (h : Heap) (n : Nat) (s : St) (c : Coll) : Prop :=
  ∀ p i, (Key.obj p, i) ∈ s.values → ¬Rich D k h p → (den h n (.obj p)).isSome = true → Fin o k D h c p i

structure Step (o : Options) (k : Consumer) (D : Option Decoder) (h : Heap) (lvl : Nat) (s : St) (c : Coll) (s' : St) (c' : Coll) : Prop where
  link : Link s' c'
  le : Le c c'
  fin : ∀ p i, (Key.obj p, i) ∈ s'.values → (Key.obj p, i) ∈ s.values ∨ (¬Rich D k h p → Fin o k D h c' p i)
  keep : ∀ e ∈ s.values, e ∈ s'.values
  zero : lvl = 0 → s'.values = s.values

def Kd (s : St) (p : Nat) : Prop := ∃ i, (Key.obj p, i) ∈ s.values

def RInv (k : Consumer) (D : Option Decoder) (h : Heap) (root : Ref) (s : St) : Prop :=
  OnePlace (sel D k) h root ∧ ∀ p, Rich D k h p → Kd s p → root = .obj p ∨ ∃ w x, Kd s w ∧ h w = some x ∧ Ref.obj p ∈ slots x

def RPost (k : Consumer) (D : Option Decoder) (h : Heap) (s : St) (rs : List Ref) (s' : St) : Prop :=
  ∀ p, Rich D k h p → Kd s' p → Kd s p ∨ Ref.obj p ∈ rs ∨ ∃ w x, Kd s' w ∧ ¬Kd s w ∧ h w = some x ∧ Ref.obj p ∈ slots x

section
variable {o : Options} {k : Consumer} {D : Option Decoder} {h : Heap} {root : Ref}

theorem Fin.mono {c c' : Coll} {p i : Nat} (hs : Sub c.heap c'.heap) (hv : c.values <+: c'.values) :
    Fin o k D h c p i → Fin o k D h c' p i :=
  fun ⟨t, m, r, h1, h2, h3⟩ => ⟨t, m, r, h1, prefix_get hv h2, h3.mono hs⟩

theorem Link.inc {s : St} {c c' : Coll} {j : Nat} (hl : Link s c) (hv : c.values <+: c'.values) (hj : c'.values.length = c.values.length + j) :
    Link (s.inc j) c' where
  idx := by show s.refIndex + j = _; rw [hl.idx, hj]
  strs := fun x i hm => prefix_get hv (hl.strs x i hm)

theorem Done.inc {n : Nat} {s : St} {c c' : Coll} {j : Nat} (hd : Done o k D h n s c) (hl : Le c c') : Done o k D h n (s.inc j) c' :=
  fun p i hm hr hs => (hd p i hm hr hs).mono hl.heap hl.values

theorem Done.step {n lvl : Nat} {s s' : St} {c c' : Coll} (hd : Done o k D h n s c) (hst : Step o k D h lvl s c s' c') :
    Done o k D h n s' c' := by
  intro p i hm hr hs
  rcases hst.fin p i hm with h1 | h1
  · exact (hd p i h1 hr hs).mono hst.le.heap hst.le.values
  · exact h1 hr

theorem Step.refl {lvl : Nat} {s : St} {c : Coll} (hl : Link s c) : Step o k D h lvl s c s c :=
  ⟨hl, Le.refl c, fun _ _ hm => .inl hm, fun _ he => he, fun _ => rfl⟩

theorem Step.trans {lvl l1 l2 : Nat} {s s1 s2 : St} {c c1 c2 : Coll} (h1 : Step o k D h l1 s c s1 c1) (h2 : Step o k D h l2 s1 c1 s2 c2)
    (e1 : lvl = 0 → l1 = 0) (e2 : lvl = 0 → l2 = 0) : Step o k D h lvl s c s2 c2 where
  link := h2.link
  le := h1.le.trans h2.le
  fin := by
    intro p i hm
    rcases h2.fin p i hm with h3 | h3
    · rcases h1.fin p i h3 with h4 | h4
      · exact .inl h4
      · exact .inr fun hr => (h4 hr).mono h2.le.heap h2.le.values
    · exact .inr h3
  keep := fun e he => h2.keep e (h1.keep e he)
  zero := fun e => (h2.zero (e2 e)).trans (h1.zero (e1 e))

/-- What happened inside an array or a map that was started at `c` and is filled now. -/
theorem Step.wrap {lvl j : Nat} {s s' : St} {c c1 c2 c3 : Coll} (hs : Step o k D h lvl (s.inc j) c1 s' c2) (hle : Le c c3)
    (hsub : Sub c2.heap c3.heap) (hv : c3.values = c2.values) : Step o k D h lvl s c s' c3 where
  link := ⟨by rw [hs.link.idx, hv], fun x i hm => by rw [hv]; exact hs.link.strs x i hm⟩
  le := hle
  fin := by
    intro p i hm
    rcases hs.fin p i hm with h3 | h3
    · exact .inl h3
    · exact .inr fun hr => (h3 hr).mono hsub (by rw [hv]; exact List.prefix_rfl)
  keep := fun e he => hs.keep e he
  zero := fun e => hs.zero e

theorem Kd.keep {lvl : Nat} {s s' : St} {c c' : Coll} (hs : Step o k D h lvl s c s' c') {p : Nat} : Kd s p → Kd s' p :=
  fun ⟨i, hi⟩ => ⟨i, hs.keep _ hi⟩

theorem lookup_mem {x : Key} {n : Nat} : ∀ {l : List (Key × Nat)}, lookup x l = some n → (x, n) ∈ l
  | [], hl => by simp [lookup] at hl
  | (y, m) :: l, hl => by
    simp only [lookup] at hl
    split at hl
    · rename_i e; subst e; cases hl; exact List.mem_cons_self
    · exact List.mem_cons_of_mem _ (lookup_mem hl)

theorem lookup_none {x : Key} : ∀ {l : List (Key × Nat)}, lookup x l = none → ∀ n, (x, n) ∉ l
  | [], _, n => by simp
  | (y, m) :: l, hl, n => by
    simp only [lookup] at hl
    split at hl
    · cases hl
    · rename_i e
      intro hm
      rcases List.mem_cons.mp hm with h1 | h1
      · cases h1; exact e rfl
      · exact lookup_none hl n h1

/-! ## Strings -/

theorem add_step {lvl : Nat} {s : St} {c : Coll} (hl : Link s c) (a : Atom) : Step o k D h lvl s c (s.inc 1) (c.push (.atom a)) where
  link := hl.inc (Le.push c _).values (by simp [Coll.push])
  le := Le.push c _
  fin := fun p i hm => .inl hm
  keep := fun e he => he
  zero := fun _ => rfl

theorem collect_add (F : Nat) (c : Coll) (a : Atom) : collect D F c (.add a) = .ok (c.push (.atom a), .atom a) := by
  rw [collect]

theorem collect_ref (F : Nat) (c : Coll) {n : Nat} {r : Ref} (hr : c.values[n]? = some r) : collect D F c (.ref n) = .ok (c, r) := by
  have h1 : ¬((n : Int) < 0) := by omega
  rw [collect]
  simp [h1, hr]

theorem string_sim {lvl : Nat} {s : St} {c : Coll} (hl : Link s c) (x : Str) :
    ∃ s' ev c', emitString k lvl s x = .ok (s', ev) ∧ (∀ F, collect D F c ev = .ok (c', .atom (.str x)))
      ∧ Step o k D h lvl s c s' c' ∧ (∀ p, Kd s' p → Kd s p) := by
  have hadd : ∃ s' ev c', (Out.ok (s.inc 1, Ev.add (.str x)) : Out (St × Ev)) = .ok (s', ev) ∧ (∀ F, collect D F c ev = .ok (c', .atom (.str x)))
      ∧ Step o k D h lvl s c s' c' ∧ (∀ p, Kd s' p → Kd s p) :=
    ⟨_, _, _, rfl, fun F => collect_add F c _, add_step hl _, fun p hp => hp⟩
  unfold emitString
  split
  · unfold process
    split
    · exact hadd
    · rename_i hne
      cases hlk : lookup (.str x) s.values with
      | some n =>
        have hr := hl.strs x n (lookup_mem hlk)
        exact ⟨_, _, _, rfl, fun F => collect_ref F c hr, Step.refl hl, fun p hp => hp⟩
      | none =>
        refine ⟨_, _, _, rfl, fun F => collect_add F c _, ?_, ?_⟩
        · refine ⟨⟨?_, ?_⟩, Le.push c _, ?_, ?_, fun e => absurd e hne⟩
          · show s.refIndex + 1 = _; rw [hl.idx]; simp [Coll.push]
          · intro y i hm
            rcases List.mem_cons.mp hm with h1 | h1
            · cases h1
              rw [hl.idx]
              simp [Coll.push]
            · exact prefix_get (Le.push c _).values (hl.strs y i h1)
          · intro p i hm
            rcases List.mem_cons.mp hm with h1 | h1
            · cases h1
            · exact .inl h1
          · exact fun e he => List.mem_cons_of_mem _ he
        · intro p ⟨i, hi⟩
          rcases List.mem_cons.mp hi with h1 | h1
          · cases h1
          · exact ⟨i, h1⟩
  · exact hadd

/-! ## Sequences -/

/-- The outcome of the emission of `r`, whose value is `t`. -/
def Sim (o : Options) (k : Consumer) (D : Option Decoder) (h : Heap) (lvl : Nat) (s : St) (c : Coll) (run : Out (St × Ev)) (r : Ref)
    (t : T) : Prop :=
  ∃ s' ev c' r' F0, run = .ok (s', ev) ∧ (∀ F, F0 ≤ F → collect D F c ev = .ok (c', r')) ∧ Step o k D h lvl s c s' c'
    ∧ Is c'.heap r' (view D o k t) ∧ RPost k D h s [r] s'

/-- Where `r` was found -/
def Src (h : Heap) (root : Ref) (s : St) (r : Ref) : Prop := r = root ∨ ∃ w x, Kd s w ∧ h w = some x ∧ r ∈ slots x

/-- The emission of values of depth `n` is right. -/
def P (o : Options) (k : Consumer) (D : Option Decoder) (h : Heap) (root : Ref) (n : Nat) : Prop :=
  ∀ m, n ≤ m → ∀ r t, den h n r = some t → ∀ lvl s c, Link s c → Done o k D h n s c →
    (lvl = 0 ∨ (RInv k D h root s ∧ Src h root s r ∧ ∀ p, Rich D k h p → r = .obj p → ¬Kd s p)) →
      Sim o k D h lvl s c (emit o k h m lvl s r) r t

theorem Step.kdZero {lvl : Nat} {s s' : St} {c c' : Coll} (hs : Step o k D h lvl s c s' c') (e : lvl = 0) {p : Nat} : Kd s' p ↔ Kd s p := by
  unfold Kd; rw [hs.zero e]

theorem seq_sim {n : Nat} (hP : P o k D h root n) {m : Nat} (hm : n ≤ m) (lvl : Nat) :
    ∀ (rs : List (Nat × Ref)) (ts : List T), denAll (den h n) (rs.map (·.2)) = some ts → (lvl = 0 → ∀ e ∈ rs, e.1 = 0) →
      ∀ (s : St) (c : Coll), Link s c → Done o k D h n s c →
        ((∀ e ∈ rs, e.1 = 0) ∨ (RInv k D h root s ∧ (∀ p, Rich D k h p → Ref.obj p ∈ rs.map (·.2) → ¬Kd s p)
          ∧ ∃ w x, Kd s w ∧ h w = some x ∧ rs.map (·.2) <:+ slots x)) →
        ∃ s' evs c' rs' F0, emitSeq o k h m s rs = .ok (s', evs) ∧ (∀ F, F0 ≤ F → collectAll D F c evs = .ok (c', rs'))
          ∧ Step o k D h lvl s c s' c' ∧ IsAll c'.heap rs' (ts.map (view D o k)) ∧ RPost k D h s (rs.map (·.2)) s'
  | [], ts, hd, hz, s, c, hl, hdn, hR => by
    simp only [List.map_nil, denAll, Option.some.injEq] at hd
    subst hd
    refine ⟨s, [], c, [], 0, rfl, ?_, Step.refl hl, IsAll.nil _, ?_⟩
    · intro F _; rw [collectAll]
    · exact fun p _ hk => .inl hk
  | (l, r) :: rs, ts, hd, hz, s, c, hl, hdn, hR => by
    simp only [List.map_cons, denAll] at hd
    cases hr : den h n r with
    | none => simp [hr] at hd
    | some t =>
      cases hrs : denAll (den h n) (rs.map (·.2)) with
      | none => simp [hr, hrs] at hd
      | some ts' =>
        simp only [hr, hrs, Option.some.injEq] at hd
        subst hd
        have hR1 : l = 0 ∨ (RInv k D h root s ∧ Src h root s r ∧ ∀ p, Rich D k h p → r = .obj p → ¬Kd s p) := by
          rcases hR with h1 | ⟨h1, h2, w, x, hw, hx, hsf⟩
          · exact .inl (h1 _ List.mem_cons_self)
          · refine .inr ⟨h1, .inr ⟨w, x, hw, hx, ?_⟩, ?_⟩
            · exact hsf.subset (by simp)
            · intro p hp e
              exact h2 p hp (by simp [e])
        obtain ⟨s1, ev, c1, r1, F1, he1, hc1, hst1, his1, hrp1⟩ := hP m hm r t hr l s c hl hdn hR1
        have hdn1 := hdn.step hst1
        have hR2 : (∀ e ∈ rs, e.1 = 0) ∨ (RInv k D h root s1 ∧ (∀ p, Rich D k h p → Ref.obj p ∈ rs.map (·.2) → ¬Kd s1 p)
          ∧ ∃ w x, Kd s1 w ∧ h w = some x ∧ rs.map (·.2) <:+ slots x) := by
          rcases hR with h1 | ⟨h1, h2, w, x, hw, hx, hsf⟩
          · exact .inl fun e he => h1 e (List.mem_cons_of_mem _ he)
          · refine .inr ⟨?_, ?_, w, x, Kd.keep hst1 hw, hx, ?_⟩
            · refine ⟨h1.1, ?_⟩
              intro p hp hk
              rcases hrp1 p hp hk with h3 | h3 | ⟨w', x', h3, _, h4, h5⟩
              · rcases h1.2 p hp h3 with h4 | ⟨w', x', h4, h5, h6⟩
                · exact .inl h4
                · exact .inr ⟨w', x', Kd.keep hst1 h4, h5, h6⟩
              · simp only [List.mem_singleton] at h3
                refine .inr ⟨w, x, Kd.keep hst1 hw, hx, ?_⟩
                rw [h3]
                exact hsf.subset (by simp)
              · exact .inr ⟨w', x', h3, h4, h5⟩
            · intro p hp hin hk
              obtain ⟨y, hy, hsel⟩ := hp
              rcases hrp1 p ⟨y, hy, hsel⟩ hk with h3 | h3 | ⟨w', x', h3, h3', h4, h5⟩
              · exact h2 p ⟨y, hy, hsel⟩ (by simp only [List.map_cons, List.mem_cons]; exact .inr hin) h3
              · simp only [List.mem_singleton] at h3
                have := h1.1.once p y w x hy hsel hx
                have h6 : 2 ≤ (((l, r) :: rs).map (fun e : Nat × Ref => e.2)).count (.obj p) := by
                  have : 0 < (rs.map (fun e : Nat × Ref => e.2)).count (Ref.obj p) := List.count_pos_iff.mpr hin
                  simp only [List.map_cons, List.count_cons, ← h3, beq_self_eq_true, if_true]
                  omega
                have h7 := hsf.sublist.count_le (.obj p)
                omega
              · have hin' : Ref.obj p ∈ slots x := hsf.subset (by simp only [List.map_cons, List.mem_cons]; exact .inr hin)
                have := h1.1.same p y w' x' w x hy hsel h4 hx h5 hin'
                subst this
                exact h3' hw
            · exact (List.suffix_cons r (rs.map (fun e : Nat × Ref => e.2))).trans hsf
        obtain ⟨s2, evs, c2, rs2, F2, he2, hc2, hst2, his2, hrp2⟩ :=
          seq_sim hP hm lvl rs ts' hrs (fun e x hx => hz e x (List.mem_cons_of_mem _ hx)) s1 c1 hst1.link hdn1 hR2
        refine ⟨s2, ev :: evs, c2, r1 :: rs2, max F1 F2, ?_, ?_, ?_, ?_, ?_⟩
        · simp only [emitSeq, he1, he2]
        · intro F hF
          rw [collectAll, hc1 F (by omega)]
          simp only [hc2 F (by omega)]
        · exact hst1.trans hst2 (fun e => hz e _ List.mem_cons_self) (fun e => e)
        · exact IsAll.cons (his1.mono hst2.le.heap) his2
        · intro p hp hk
          rcases hrp2 p hp hk with h3 | h3 | ⟨w, x, h3, h4, h5, h6⟩
          · rcases hrp1 p hp h3 with h4 | h4 | ⟨w, x, h4, h5, h6, h7⟩
            · exact .inl h4
            · exact .inr (.inl (by simp only [List.mem_singleton] at h4; simp [h4]))
            · exact .inr (.inr ⟨w, x, Kd.keep hst2 h4, h5, h6, h7⟩)
          · exact .inr (.inl (by simp only [List.map_cons, List.mem_cons]; exact .inr h3))
          · exact .inr (.inr ⟨w, x, h3, fun hk => h4 (Kd.keep hst1 hk), h5, h6⟩)

end

end Verif.Stream
