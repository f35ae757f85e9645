import Verif.Stream.Main
/-!
# Streaming any graph, with or without cycles, to a collector
-/
set_option autoImplicit false
set_option linter.unusedVariables false
set_option linter.unusedSimpArgs false
namespace Verif.Stream
open Verif.Value (Str)

theorem AllRel.mono {S S' : Ref → Ref → Prop} (hS : ∀ a b, S a b → S' a b) : ∀ {as bs : List Ref}, AllRel S as bs → AllRel S' as bs
  | [], [], _ => trivial
  | _ :: _, _ :: _, h => ⟨hS _ _ h.1, AllRel.mono hS h.2⟩
  | [], _ :: _, h => h.elim
  | _ :: _, [], h => h.elim

theorem EntriesRel.mono {S S' : Ref → Ref → Prop} (hS : ∀ a b, S a b → S' a b) : ∀ {as bs : List (Ref × Ref)},
    EntriesRel S as bs → EntriesRel S' as bs
  | [], [], _ => trivial
  | _ :: _, _ :: _, h => ⟨hS _ _ h.1, hS _ _ h.2.1, EntriesRel.mono hS h.2.2⟩
  | [], _ :: _, h => h.elim
  | _ :: _, [], h => h.elim

theorem Tagged.mono {d : Dialect} {h h' : Heap} (hs : Sub h h') {r : Ref} {name : Str} {Q Q' : Ref → Prop} (hQ : ∀ v, Q v → Q' v) :
    Tagged d h r name Q → Tagged d h' r name Q' :=
  fun ⟨q, v, h1, h2, h3⟩ => ⟨q, v, h1, hs _ _ h2, hQ v h3⟩

theorem Encodes.mono {o : Options} {k : Consumer} {S S' : Ref → Ref → Prop} {h h' : Heap} (hs : Sub h h') (hS : ∀ a b, S a b → S' a b)
    {x : Obj} {r : Ref} (he : Encodes o k S h x r) : Encodes o k S' h' x r := by
  cases x with
  | arr es =>
    obtain ⟨q, rs, h1, h2, h3⟩ := he
    exact ⟨q, rs, h1, hs _ _ h2, h3.mono hS⟩
  | map es =>
    simp only [Encodes] at he ⊢
    split at he
    · rename_i hp
      obtain ⟨q, rs, h1, h2, h3⟩ := he
      rw [if_pos hp]
      exact ⟨q, rs, h1, hs _ _ h2, h3.mono hS⟩
    · rename_i hp
      rw [if_neg hp]
      refine he.mono hs ?_
      rintro v ⟨q, rs, h1, h2, h3⟩
      exact ⟨q, rs, h1, hs _ _ h2, h3.mono hS⟩
  | sens v => exact Tagged.mono hs (fun v hv => hS _ _ hv) he
  | bin bs =>
    simp only [Encodes] at he ⊢
    split at he
    · rename_i hp
      obtain ⟨q, h1, h2⟩ := he
      rw [if_pos hp]
      exact ⟨q, h1, hs _ _ h2⟩
    · rename_i hp
      rw [if_neg hp]
      exact he.mono hs (fun _ hv => hv)
  | time t =>
    simp only [Encodes] at he ⊢
    split at he
    · rename_i hp
      obtain ⟨q, h1, h2⟩ := he
      rw [if_pos hp]
      exact ⟨q, h1, hs _ _ h2⟩
    · rename_i hp
      rw [if_neg hp]
      exact he.mono hs (fun _ hv => hv)
  | typ t =>
    simp only [Encodes] at he ⊢
    split at he
    · obtain ⟨q, h1, h2⟩ := he
      exact ⟨q, h1, hs _ _ h2⟩
    · obtain ⟨name, hn, he⟩ := he
      refine ⟨name, hn, he.mono hs ?_⟩
      rintro v ⟨q, h1, h2⟩
      exact ⟨q, h1, hs _ _ h2⟩

theorem entries_toPairs {S : Ref → Ref → Prop} : ∀ {es : List (Ref × Ref)} {rs : List Ref}, AllRel S (flatten es) rs → EntriesRel S es (toPairs rs)
  | [], [], _ => trivial
  | [], _ :: _, h => h.elim
  | e :: es, [], h => h.elim
  | e :: es, [_], h => by
    have h' : S e.1 _ ∧ AllRel S (e.2 :: flatten es) [] := h
    exact h'.2.elim
  | e :: es, a :: b :: rs, h => by
    have h' : S e.1 a ∧ S e.2 b ∧ AllRel S (flatten es) rs := h
    exact ⟨h'.1, h'.2.1, entries_toPairs h'.2.2⟩

section
variable {o : Options} {k : Consumer} {h : Heap}

/-- What holds between the calls: `R` relates what was emitted to what was collected; `A` are the objects being filled.  `Q`: every object is
emitted once. -/
structure GInv (o : Options) (k : Consumer) (h : Heap) (Q : Prop) (A : List Nat) (s : St) (c : Coll) (R : Nat → Ref → Prop) : Prop where
  link : Link s c
  tab : ∀ p i, (Key.obj p, i) ∈ s.values → ∃ r, c.values[i]? = some r ∧ R p r
  enc : ∀ p r, R p r → (∃ q ∈ A, r = .obj q) ∨ ∃ x, h p = some x ∧ Encodes o k (Rel R) c.heap x r
  cell : ∀ p r, R p r → ∃ q, r = .obj q ∧ q < c.cells.length
  inj : ∀ p p' r, R p r → R p' r → p = p'
  full : Q → ∀ p r, R p r → ∃ i, (Key.obj p, i) ∈ s.values ∧ c.values[i]? = some r
  uniq : ∀ p i j, (Key.obj p, i) ∈ s.values → (Key.obj p, j) ∈ s.values → i = j

/-- Only atoms are keys. -/
def AtomKeys (h : Heap) : Prop := ∀ p es, h p = some (.map es) → ∀ e ∈ es, ∃ a, e.1 = Ref.atom a

/-- The level at which `r` is emitted, if every object is to be emitted once -/
def Once (k : Consumer) (h : Heap) (lvl : Nat) (r : Ref) : Prop := (∃ a, r = .atom a) ∨ (lvl ≠ 0 ∧ (AtomKeys h ∨ (k.complexKeys = true ∧ lvl ≥ 2)))

/-- The outcome -/
def GSim (o : Options) (k : Consumer) (h : Heap) (Q : Prop) (A : List Nat) (c : Coll) (R : Nat → Ref → Prop) (s' : St) (ev : Ev) (r : Ref) :
    Prop :=
  ∃ c' r' R', (∀ F, collect none F c ev = .ok (c', r')) ∧ GInv o k h Q A s' c' R' ∧ Le c c' ∧ (∀ p x, R p x → R' p x) ∧ Rel R' r r'

def GP (o : Options) (k : Consumer) (h : Heap) (Q : Prop) (m : Nat) : Prop :=
  ∀ lvl r s c A R s' ev, (Q → Once k h lvl r) → GInv o k h Q A s c R → emit o k h m lvl s r = .ok (s', ev) → GSim o k h Q A c R s' ev r

theorem Rel.mono {R R' : Nat → Ref → Prop} (hR : ∀ p x, R p x → R' p x) : ∀ a b, Rel R a b → Rel R' a b
  | .atom _, _, h => h
  | .obj _, _, h => hR _ _ h

theorem GInv.push {Q : Prop} {A : List Nat} {s : St} {c : Coll} {R : Nat → Ref → Prop} (hi : GInv o k h Q A s c R) (r : Ref) :
    GInv o k h Q A (s.inc 1) (c.push r) R where
  link := hi.link.inc (Le.push c r).values (by simp [Coll.push])
  tab := fun p i hm => by
    obtain ⟨x, h1, h2⟩ := hi.tab p i hm
    exact ⟨x, (Le.push c r).get h1, h2⟩
  enc := hi.enc
  cell := hi.cell
  inj := hi.inj
  full := fun q p x hx => by
    obtain ⟨i, h1, h2⟩ := hi.full q p x hx
    exact ⟨i, h1, (Le.push c r).get h2⟩
  uniq := hi.uniq

theorem gstring {Q : Prop} {A : List Nat} {s s' : St} {c : Coll} {R : Nat → Ref → Prop} (hi : GInv o k h Q A s c R) {lvl : Nat} {x : Str}
    {ev : Ev} (he : emitString k lvl s x = .ok (s', ev)) :
    ∃ c', (∀ F, collect none F c ev = .ok (c', .atom (.str x))) ∧ GInv o k h Q A s' c' R ∧ Le c c' := by
  obtain ⟨s1, ev1, c1, he1, hc1, hst, hk⟩ := string_sim (o := o) (k := k) (D := none) (h := h) (lvl := lvl) hi.link x
  rw [he] at he1
  cases he1
  have hle := hst.le
  -- the collector got at most one more value
  have hcells : c1.cells = c.cells := by
    have := hc1 0
    unfold emitString at he
    split at he
    · unfold process at he
      split at he
      · cases he; rw [collect] at this; cases this; rfl
      · split at he
        · cases he
          rw [collect] at this
          split at this
          · cases this
          · cases this; rfl
        · cases he; rw [collect] at this; cases this; rfl
    · cases he; rw [collect] at this; cases this; rfl
  have hobj : ∀ p i, (Key.obj p, i) ∈ s'.values ↔ (Key.obj p, i) ∈ s.values := by
    intro p i
    refine ⟨?_, hst.keep _⟩
    unfold emitString at he
    split at he
    · unfold process at he
      split at he
      · cases he; exact id
      · split at he
        · cases he; exact id
        · cases he
          intro hm
          rcases List.mem_cons.mp hm with h1 | h1
          · cases h1
          · exact h1
    · cases he; exact id
  refine ⟨c1, hc1, ⟨hst.link, ?_, ?_, ?_, hi.inj, ?_, ?_⟩, hle⟩
  · intro p i hm
    obtain ⟨r, h1, h2⟩ := hi.tab p i ((hobj p i).mp hm)
    exact ⟨r, hle.get h1, h2⟩
  · intro p r hr
    rcases hi.enc p r hr with h1 | ⟨y, h1, h2⟩
    · exact .inl h1
    · exact .inr ⟨y, h1, h2.mono hle.heap (fun _ _ z => z)⟩
  · intro p r hr
    rw [hcells]; exact hi.cell p r hr
  · intro q p r hr
    obtain ⟨i, h1, h2⟩ := hi.full q p r hr
    exact ⟨i, (hobj p i).mpr h1, hle.get h2⟩
  · intro p i j h1 h2
    exact hi.uniq p i j ((hobj p i).mp h1) ((hobj p j).mp h2)

theorem gseq {Q : Prop} {m : Nat} (hP : GP o k h Q m) : ∀ (rs : List (Nat × Ref)) (s : St) (c : Coll) (A : List Nat) (R : Nat → Ref → Prop)
    (s' : St) (evs : List Ev), (Q → ∀ e ∈ rs, Once k h e.1 e.2) → GInv o k h Q A s c R → emitSeq o k h m s rs = .ok (s', evs) →
      ∃ c' rs' R', (∀ F, collectAll none F c evs = .ok (c', rs')) ∧ GInv o k h Q A s' c' R' ∧ Le c c' ∧ (∀ p x, R p x → R' p x)
        ∧ AllRel (Rel R') (rs.map (·.2)) rs'
  | [], s, c, A, R, s', evs, hQ, hi, he => by
    simp only [emitSeq, Out.ok.injEq, Prod.mk.injEq] at he
    obtain ⟨rfl, rfl⟩ := he
    exact ⟨c, [], R, fun F => by rw [collectAll], hi, Le.refl c, fun _ _ x => x, trivial⟩
  | (l, r) :: rs, s, c, A, R, s', evs, hQ, hi, he => by
    simp only [emitSeq] at he
    split at he
    · cases he
    · cases he
    · rename_i s1 e he1
      split at he
      · cases he
      · cases he
      · rename_i s2 es he2
        cases he
        obtain ⟨c1, r1, R1, hc1, hi1, hl1, hR1, hr1⟩ := hP l r s c A R s1 e (fun q => hQ q _ List.mem_cons_self) hi he1
        obtain ⟨c2, rs2, R2, hc2, hi2, hl2, hR2, hr2⟩ := gseq hP rs s1 c1 A R1 s' es (fun q e he => hQ q e (List.mem_cons_of_mem _ he)) hi1 he2
        refine ⟨c2, r1 :: rs2, R2, fun F => ?_, hi2, hl1.trans hl2, fun p x hx => hR2 p x (hR1 p x hx), ⟨Rel.mono hR2 _ _ hr1, hr2⟩⟩
        rw [collectAll, hc1 F]
        simp only [hc2 F]

/-- The relation with one more pair -/
def Ext (R : Nat → Ref → Prop) (w q : Nat) : Nat → Ref → Prop := fun p r => R p r ∨ (p = w ∧ r = .obj q)

/-- An object `w` that was not emitted before is started.  At level 0 it is not remembered. -/
theorem GInv.start {Q : Prop} {A : List Nat} {s : St} {c : Coll} {R : Nat → Ref → Prop} (hi : GInv o k h Q A s c R) {lvl w : Nat}
    (hQ : Q → lvl ≠ 0) (hnew : lvl ≠ 0 → lookup (.obj w) s.values = none) :
    GInv o k h Q (c.cells.length :: A) ((if lvl = 0 then s else { s with values := (.obj w, s.refIndex) :: s.values }).inc 1) c.start
      (Ext R w c.cells.length) := by
  have hle := start_le c
  have hfresh : ∀ p, ¬R p (.obj c.cells.length) := by
    intro p hr
    obtain ⟨q, h1, h2⟩ := hi.cell p _ hr
    cases h1; omega
  refine ⟨?_, ?_, ?_, ?_, ?_, ?_, ?_⟩
  · have : Link (if lvl = 0 then s else { s with values := (.obj w, s.refIndex) :: s.values }) c := by
      split
      · exact hi.link
      · refine ⟨hi.link.idx, ?_⟩
        intro x i hm
        rcases List.mem_cons.mp hm with h1 | h1
        · cases h1
        · exact hi.link.strs x i h1
    exact this.inc hle.values (start_len c)
  · intro p i hm
    by_cases hl : lvl = 0
    · have hm' : (Key.obj p, i) ∈ s.values := by simpa only [hl, if_true, St.inc] using hm
      obtain ⟨r, h1, h2⟩ := hi.tab p i hm'
      exact ⟨r, hle.get h1, .inl h2⟩
    · have hm' : (Key.obj p, i) ∈ (Key.obj w, s.refIndex) :: s.values := by simpa only [hl, if_false, St.inc] using hm
      rcases List.mem_cons.mp hm' with h1 | h1
      · cases h1
        exact ⟨_, by rw [hi.link.idx]; exact start_get c, .inr ⟨rfl, rfl⟩⟩
      · obtain ⟨r, h2, h3⟩ := hi.tab p i h1
        exact ⟨r, hle.get h2, .inl h3⟩
  · rintro p r (hr | ⟨rfl, rfl⟩)
    · rcases hi.enc p r hr with ⟨q, h1, h2⟩ | ⟨x, h1, h2⟩
      · exact .inl ⟨q, List.mem_cons_of_mem _ h1, h2⟩
      · exact .inr ⟨x, h1, h2.mono hle.heap (Rel.mono fun _ _ y => .inl y)⟩
    · exact .inl ⟨_, List.mem_cons_self, rfl⟩
  · rintro p r (hr | ⟨rfl, rfl⟩)
    · obtain ⟨q, h1, h2⟩ := hi.cell p r hr
      exact ⟨q, h1, by simp [Coll.start, Coll.push, Coll.new]; omega⟩
    · exact ⟨_, rfl, by simp [Coll.start, Coll.push, Coll.new]⟩
  · rintro p p' r (hr | ⟨rfl, rfl⟩) (hr' | ⟨h1, h2⟩)
    · exact hi.inj p p' r hr hr'
    · subst h2; exact absurd hr (hfresh _)
    · exact absurd hr' (hfresh _)
    · exact h1.symm
  · intro q p r hr
    have hl := hQ q
    rw [if_neg hl]
    rcases hr with hr | ⟨rfl, rfl⟩
    · obtain ⟨i, h1, h2⟩ := hi.full q p r hr
      exact ⟨i, List.mem_cons_of_mem _ h1, hle.get h2⟩
    · exact ⟨s.refIndex, List.mem_cons_self, by rw [hi.link.idx]; exact start_get c⟩
  · intro p i j h1 h2
    by_cases hl : lvl = 0
    · have h1' : (Key.obj p, i) ∈ s.values := by simpa only [hl, if_true, St.inc] using h1
      have h2' : (Key.obj p, j) ∈ s.values := by simpa only [hl, if_true, St.inc] using h2
      exact hi.uniq p i j h1' h2'
    · have h1' : (Key.obj p, i) ∈ (Key.obj w, s.refIndex) :: s.values := by simpa only [hl, if_false, St.inc] using h1
      have h2' : (Key.obj p, j) ∈ (Key.obj w, s.refIndex) :: s.values := by simpa only [hl, if_false, St.inc] using h2
      have hn := lookup_none (hnew hl)
      rcases List.mem_cons.mp h1' with e1 | e1
      · cases e1
        rcases List.mem_cons.mp h2' with e2 | e2
        · cases e2; rfl
        · exact absurd e2 (hn j)
      · rcases List.mem_cons.mp h2' with e2 | e2
        · cases e2; exact absurd e1 (hn i)
        · exact hi.uniq p i j e1 e2

/-- The object is filled. -/
theorem GInv.fill {Q : Prop} {A : List Nat} {s' : St} {c c2 : Coll} {R' : Nat → Ref → Prop} {w : Nat} {x y : Obj}
    (hi : GInv o k h Q (c.cells.length :: A) s' c2 R') (hle : Le c.start c2) (hw : h w = some x) (hr : R' w (.obj c.cells.length))
    (hx : Encodes o k (Rel R') (c2.fill c.cells.length y).heap x (.obj c.cells.length)) :
    GInv o k h Q A s' (c2.fill c.cells.length y) R' := by
  obtain ⟨h1, h2, h3⟩ := fill_le y hle
  refine ⟨⟨hi.link.idx, hi.link.strs⟩, hi.tab, ?_, ?_, hi.inj, hi.full, hi.uniq⟩
  · intro p r hp
    rcases hi.enc p r hp with ⟨q, hq, e⟩ | ⟨z, hz1, hz2⟩
    · rcases List.mem_cons.mp hq with e1 | e1
      · subst e1; subst e
        have := hi.inj p w _ hp hr
        subst this
        exact .inr ⟨x, hw, hx⟩
      · exact .inl ⟨q, e1, e⟩
    · exact .inr ⟨z, hz1, hz2.mono h2 (fun _ _ v => v)⟩
  · intro p r hp
    obtain ⟨q, e, hq⟩ := hi.cell p r hp
    exact ⟨q, e, by simpa [Coll.fill] using hq⟩

/-- An array that stands for no object is started. -/
theorem GInv.anon {Q : Prop} {A : List Nat} {s : St} {c : Coll} {R : Nat → Ref → Prop} (hi : GInv o k h Q A s c R) :
    GInv o k h Q A (s.inc 1) c.start R := by
  have hle := start_le c
  refine ⟨hi.link.inc hle.values (start_len c), ?_, ?_, ?_, hi.inj, ?_, hi.uniq⟩
  · intro p i hm
    obtain ⟨r, h1, h2⟩ := hi.tab p i hm
    exact ⟨r, hle.get h1, h2⟩
  · intro p r hr
    rcases hi.enc p r hr with h1 | ⟨x, h1, h2⟩
    · exact .inl h1
    · exact .inr ⟨x, h1, h2.mono hle.heap (fun _ _ y => y)⟩
  · intro p r hr
    obtain ⟨q, h1, h2⟩ := hi.cell p r hr
    exact ⟨q, h1, by simp [Coll.start, Coll.push, Coll.new]; omega⟩
  · intro q p r hr
    obtain ⟨i, h1, h2⟩ := hi.full q p r hr
    exact ⟨i, h1, hle.get h2⟩

/-- It is filled. -/
theorem GInv.fillAnon {Q : Prop} {A : List Nat} {s' : St} {c c2 : Coll} {R' : Nat → Ref → Prop} {y : Obj}
    (hi : GInv o k h Q A s' c2 R') (hle : Le c.start c2) : GInv o k h Q A s' (c2.fill c.cells.length y) R' := by
  obtain ⟨h1, h2, h3⟩ := fill_le y hle
  refine ⟨⟨hi.link.idx, hi.link.strs⟩, hi.tab, ?_, ?_, hi.inj, hi.full, hi.uniq⟩
  · intro p r hp
    rcases hi.enc p r hp with h3 | ⟨z, hz1, hz2⟩
    · exact .inl h3
    · exact .inr ⟨z, hz1, hz2.mono h2 (fun _ _ v => v)⟩
  · intro p r hp
    obtain ⟨q, e, hq⟩ := hi.cell p r hp
    exact ⟨q, e, by simpa [Coll.fill] using hq⟩

/-- The state in which the body of an object is run -/
def rec1 (lvl w : Nat) (s : St) : St := if lvl = 0 then s else { s with values := (.obj w, s.refIndex) :: s.values }

theorem Out.map_ok {α β : Type} {f : α → β} {x : Out α} {b : β} (hx : x.map f = .ok b) : ∃ a, x = .ok a ∧ f a = b := by
  cases x with
  | ok a => exact ⟨a, rfl, Out.ok.inj hx⟩
  | panic => cases hx
  | deep => cases hx

/-- The value of a tagged map was collected. -/
theorem gtagged {Q : Prop} {A : List Nat} {s' : St} {c c2 : Coll} {R R' : Nat → Ref → Prop} {w : Nat} {x : Obj} {name : Str} {ev : Ev} {r : Ref}
    (hw : h w = some x) (hc : ∀ F, collect none F (c.tag o.dialect name) ev = .ok (c2, r)) (hle : Le (c.tag o.dialect name) c2)
    (hi : GInv o k h Q (c.cells.length :: A) s' c2 R') (hR : ∀ p y, Ext R w c.cells.length p y → R' p y)
    (hx : Sub c2.heap (c2.fill c.cells.length (.map (tagEntries o.dialect name r))).heap →
      (c2.fill c.cells.length (.map (tagEntries o.dialect name r))).heap c.cells.length = some (.map (tagEntries o.dialect name r)) →
      Encodes o k (Rel R') (c2.fill c.cells.length (.map (tagEntries o.dialect name r))).heap x (.obj c.cells.length)) :
    GSim o k h Q A c R s' (tagged o.dialect name ev) (.obj w) := by
  have hle' : Le c.start c2 := (tag_le c o.dialect name).trans hle
  obtain ⟨h1, h2, h3⟩ := fill_le (.map (tagEntries o.dialect name r)) hle'
  refine ⟨_, _, R', fun F => collect_tagged (D := none) (fun _ e => by cases e) (hc F), hi.fill hle' hw (hR _ _ (.inr ⟨rfl, rfl⟩)) (hx h2 h3), h1,
    fun p y hy => hR p y (.inl hy), hR _ _ (.inr ⟨rfl, rfl⟩)⟩

theorem GInv.tag {Q : Prop} {A : List Nat} {s : St} {c : Coll} {R : Nat → Ref → Prop} (hi : GInv o k h Q A (s.inc 1) c.start R) (name : Str) :
    GInv o k h Q A (s.inc 4) (c.tag o.dialect name) R :=
  ((hi.push (.atom (.str o.dialect.typeKey))).push (.atom (.str name))).push (.atom (.str o.dialect.valueKey))

theorem gleaf {Q : Prop} {A : List Nat} {s' : St} {c : Coll} {R : Nat → Ref → Prop} {w : Nat} {x : Obj} {ev : Ev}
    (hw : h w = some x) (hc : ∀ F, collect none F c ev = .ok ((c.new (some x)).push (.obj c.cells.length), .obj c.cells.length))
    (hi : GInv o k h Q (c.cells.length :: A) s' c.start (Ext R w c.cells.length))
    (hx : ∀ hb : Heap, hb c.cells.length = some x → Encodes o k (Rel (Ext R w c.cells.length)) hb x (.obj c.cells.length)) :
    GSim o k h Q A c R s' ev (.obj w) := by
  have e : (c.new (some x)).push (.obj c.cells.length) = c.start.fill c.cells.length x := by
    simp [Coll.start, Coll.fill, Coll.push, Coll.new]
  obtain ⟨h1, h2, h3⟩ := fill_le x (Le.refl c.start)
  refine ⟨_, _, Ext R w c.cells.length, hc, ?_, ?_, fun p y hy => Or.inl hy, Or.inr ⟨rfl, rfl⟩⟩
  · rw [e]
    exact hi.fill (Le.refl _) hw (.inr ⟨rfl, rfl⟩) (hx _ h3)
  · rw [e]; exact h1

theorem gbody {Q : Prop} {m : Nat} (hP : GP o k h Q m) (hs : Streamable o k h) {lvl w : Nat} {x : Obj} {s : St} {c : Coll} {A : List Nat}
    {R : Nat → Ref → Prop} {s' : St} {ev : Ev} (hw : h w = some x) (hQ : Q → Once k h lvl (.obj w)) (hi : GInv o k h Q A s c R)
    (hnew : lvl ≠ 0 → lookup (.obj w) s.values = none) (he : body o k h m lvl x (rec1 lvl w s) = .ok (s', ev)) :
    GSim o k h Q A c R s' ev (.obj w) := by
  have hQ' : Q → lvl ≠ 0 ∧ (AtomKeys h ∨ (k.complexKeys = true ∧ lvl ≥ 2)) := by
    intro q
    rcases hQ q with ⟨a, e⟩ | h1
    · cases e
    · exact h1
  have h0 : GInv o k h Q (c.cells.length :: A) ((rec1 lvl w s).inc 1) c.start (Ext R w c.cells.length) := hi.start (fun q => (hQ' q).1) hnew
  generalize rec1 lvl w s = s1 at he h0
  have hval : ∀ r, Q → Once k h lvl r := fun r q => .inr (hQ' q)
  cases x with
  | arr es =>
    simp only [body] at he
    obtain ⟨⟨s2, evs⟩, he1, he2⟩ := Out.map_ok he
    cases he2
    rw [emitAll_seq] at he1
    obtain ⟨c2, rs', R', hc, hi2, hle, hR, hrs⟩ := gseq hP _ _ _ _ _ _ _ (fun q e hm => by
      obtain ⟨y, _, rfl⟩ := List.mem_map.mp hm; exact hval _ q) h0 he1
    have e1 : (es.map fun r => (lvl, r)).map (fun e : Nat × Ref => e.2) = es := by
      rw [List.map_map]; exact List.map_id es
    rw [e1] at hrs
    obtain ⟨h1, h2, h3⟩ := fill_le (.arr rs') hle
    exact ⟨_, _, R', fun F => collect_arr (hc F), hi2.fill hle hw (hR _ _ (.inr ⟨rfl, rfl⟩)) ⟨_, rs', rfl, h3, hrs⟩, h1,
      fun p y hy => hR p y (.inl hy), hR _ _ (.inr ⟨rfl, rfl⟩)⟩
  | map es =>
    cases hpl : plainMap k es with
    | true =>
      simp only [body, hpl, if_true] at he
      obtain ⟨⟨s2, evs⟩, he1, he2⟩ := Out.map_ok he
      cases he2
      rw [emitEntries_seq] at he1
      obtain ⟨c2, rs', R', hc, hi2, hle, hR, hrs⟩ := gseq hP _ _ _ _ _ _ _ (fun q e hm => by
        obtain ⟨y, hy0, hy⟩ := List.mem_flatMap.mp hm
        rcases List.mem_cons.mp hy with rfl | hy
        · rcases (hQ' q).2 with hk | ⟨hk, hl⟩
          · exact .inl (hk w es hw y hy0)
          · have : ¬(lvl = 1) := by omega
            simp only [if_neg this]
            exact hval _ q
        · simp only [List.mem_singleton] at hy
          subst hy
          exact hval _ q) h0 he1
      rw [map_snd_flat] at hrs
      obtain ⟨h1, h2, h3⟩ := fill_le (.map (toPairs rs')) hle
      refine ⟨_, _, R', fun F => collect_map (D := none) (hc F), hi2.fill hle hw (hR _ _ (.inr ⟨rfl, rfl⟩)) ?_, h1,
        fun p y hy => hR p y (.inl hy), hR _ _ (.inr ⟨rfl, rfl⟩)⟩
      simp only [Encodes, hpl, if_true]
      exact ⟨_, _, rfl, h3, entries_toPairs hrs⟩
    | false =>
      simp only [body, hpl, Bool.false_eq_true, if_false] at he
      obtain ⟨⟨s2, evs⟩, he1, he2⟩ := Out.map_ok he
      cases he2
      rw [emitEntries_seq] at he1
      have h4 := (h0.tag o.dialect.map).anon
      obtain ⟨c2, rs', R', hc, hi2, hle, hR, hrs⟩ := gseq hP _ _ _ _ _ _ _ (fun q e hm => by
        obtain ⟨y, hy0, hy⟩ := List.mem_flatMap.mp hm
        rcases List.mem_cons.mp hy with rfl | hy
        · rcases (hQ' q).2 with hk | ⟨hk, hl⟩
          · exact .inl (hk w es hw y hy0)
          · simp [plainMap, hk] at hpl
        · simp only [List.mem_singleton] at hy
          subst hy
          exact hval _ q) h4 he1
      rw [map_snd_flat] at hrs
      obtain ⟨h1, h2, h3⟩ := fill_le (.arr rs') hle
      refine gtagged hw (fun F => collect_arr (hc F)) h1 (hi2.fillAnon hle) hR ?_
      intro g1 g2
      simp only [Encodes, hpl, Bool.false_eq_true, if_false]
      exact ⟨_, _, rfl, g2, _, rs', rfl, g1 _ _ h3, hrs⟩
  | sens v =>
    simp only [body] at he
    split at he
    · cases he
    · obtain ⟨⟨s2, ev2⟩, he1, he2⟩ := Out.map_ok he
      cases he2
      obtain ⟨c2, r', R', hc, hi2, hle, hR, hrs⟩ := hP _ _ _ _ _ _ _ _ (hval v) (h0.tag o.dialect.sensitive) he1
      refine gtagged hw hc hle hi2 hR ?_
      intro g1 g2
      exact ⟨_, _, rfl, g2, hrs⟩
  | bin bs =>
    simp only [body] at he
    split at he
    · rename_i hb
      cases he
      refine gleaf hw (fun F => by rw [collect]) h0 ?_
      intro hbp hp
      simp only [Encodes, hb, if_true]
      exact ⟨_, rfl, hp⟩
    · rename_i hb
      split at he
      · cases he
      · obtain ⟨⟨s2, ev2⟩, he1, he2⟩ := Out.map_ok he
        cases he2
        obtain ⟨c2, hc, hi2, hle⟩ := gstring (h0.tag o.dialect.binary) he1
        refine gtagged hw hc hle hi2 (fun _ _ y => y) ?_
        intro g1 g2
        simp only [Encodes, hb, if_false]
        exact ⟨_, _, rfl, g2, rfl⟩
  | time t =>
    simp only [body] at he
    split at he
    · rename_i hb
      cases he
      refine gleaf hw (fun F => by rw [collect]) h0 ?_
      intro hbp hp
      simp only [Encodes, hb, if_true]
      exact ⟨_, rfl, hp⟩
    · rename_i hb
      split at he
      · cases he
      · obtain ⟨⟨s2, ev2⟩, he1, he2⟩ := Out.map_ok he
        cases he2
        obtain ⟨c2, hc, hi2, hle⟩ := gstring (h0.tag o.dialect.time) he1
        refine gtagged hw hc hle hi2 (fun _ _ y => y) ?_
        intro g1 g2
        simp only [Encodes, hb, if_false]
        exact ⟨_, _, rfl, g2, rfl⟩
  | typ x =>
    simp only [body] at he
    split at he
    · rename_i hn
      cases he
      have h4 := (h0.push (.atom (.str o.dialect.typeKey))).push (.atom (.str x))
      have hle : Le c.start ((c.start.push (.atom (.str o.dialect.typeKey))).push (.atom (.str x))) := (Le.push _ _).trans (Le.push _ _)
      have hc : ∀ F, collectAll none F c.start [.add (.str o.dialect.typeKey), .add (.str x)]
          = .ok ((c.start.push (.atom (.str o.dialect.typeKey))).push (.atom (.str x)), [.atom (.str o.dialect.typeKey), .atom (.str x)]) := by
        intro F; simp only [collectAll, collect]
      obtain ⟨h1, h2, h3⟩ := fill_le (.map [(.atom (.str o.dialect.typeKey), .atom (.str x))]) hle
      refine ⟨_, _, Ext R w c.cells.length, fun F => collect_map (D := none) (hc F), h4.fill hle hw (.inr ⟨rfl, rfl⟩) ?_, h1, fun p y hy => Or.inl hy,
        Or.inr ⟨rfl, rfl⟩⟩
      simp only [Encodes, hn]
      exact ⟨_, rfl, h3⟩
    · rename_i names hn
      split at he
      · rename_i hx; exact absurd hx (hs.named w x names hw hn)
      · rename_i name hx
        obtain ⟨⟨s2, evs⟩, he1, he2⟩ := Out.map_ok he
        cases he2
        simp only [emitAll] at he1
        have h4 := (h0.tag o.dialect.alias).anon
        split at he1
        · cases he1
        · cases he1
        · rename_i s3 e3 he3
          obtain ⟨c3, hc3, hi3, hle3⟩ := gstring h4 he3
          split at he1
          · cases he1
          · cases he1
          · rename_i s4 e4 he4
            split at he4
            · cases he4
            · cases he4
            · rename_i s5 e5 he5
              cases he4
              cases he1
              obtain ⟨c5, hc5, hi5, hle5⟩ := gstring hi3 he5
              have hca : ∀ F, collectAll none F (c.tag o.dialect o.dialect.alias).start [e3, e5] = .ok (c5, [.atom (.str name), .atom (.str x)]) := by
                intro F; simp only [collectAll, hc3 F, hc5 F]
              obtain ⟨h1, h2, h3⟩ := fill_le (.arr [.atom (.str name), .atom (.str x)]) (hle3.trans hle5)
              refine gtagged hw (fun F => collect_arr (hca F)) h1 (hi5.fillAnon (hle3.trans hle5)) (fun _ _ y => y) ?_
              intro g1 g2
              simp only [Encodes, hn]
              exact ⟨name, hx, _, _, rfl, g2, _, rfl, g1 _ _ h3⟩

theorem GP_all {Q : Prop} (hs : Streamable o k h) : ∀ m, GP o k h Q m := by
  have hatom : ∀ m lvl (a : Atom) s c A R s' ev, GInv o k h Q A s c R → emit o k h m lvl s (.atom a) = .ok (s', ev) →
      GSim o k h Q A c R s' ev (.atom a) := by
    intro m lvl a s c A R s' ev hi he
    have hadd : (Out.ok (s.inc 1, Ev.add a) : Out (St × Ev)) = .ok (s', ev) → GSim o k h Q A c R s' ev (.atom a) := by
      intro he
      cases he
      exact ⟨_, _, R, fun F => collect_add F c a, hi.push _, Le.push _ _, fun _ _ y => y, rfl⟩
    cases a with
    | str x =>
      have : emit o k h m lvl s (.atom (.str x)) = emitString k lvl s x := by cases m <;> rfl
      rw [this] at he
      obtain ⟨c', hc, hi', hle⟩ := gstring hi he
      exact ⟨c', _, R, hc, hi', hle, fun _ _ y => y, rfl⟩
    | _ => cases m <;> exact hadd he
  intro m
  induction m with
  | zero =>
    intro lvl r s c A R s' ev hQ hi he
    cases r with
    | atom a => exact hatom _ _ _ _ _ _ _ _ _ hi he
    | obj w => cases he
  | succ m ih =>
    intro lvl r s c A R s' ev hQ hi he
    cases r with
    | atom a => exact hatom _ _ _ _ _ _ _ _ _ hi he
    | obj w =>
      cases hw : h w with
      | none => simp [emit, hw] at he
      | some x =>
        rw [emit_obj hs m lvl s w hw] at he
        unfold process at he
        split at he
        · rename_i hl
          exact gbody ih hs hw hQ hi (fun e => absurd hl e) (by unfold rec1; rw [if_pos hl]; exact he)
        · rename_i hl
          split at he
          · rename_i n hlk
            cases he
            obtain ⟨r', h1, h2⟩ := hi.tab w n (lookup_mem hlk)
            exact ⟨c, r', R, fun F => collect_ref F c h1, hi, Le.refl c, fun _ _ y => y, h2⟩
          · rename_i hlk
            exact gbody ih hs hw hQ hi (fun _ => hlk) (by unfold rec1; rw [if_neg hl]; exact he)

end
end Verif.Stream
