import Verif.Graph.Steps
import Verif.Graph.Inv
import Verif.Graph.SepSpec
import Verif.HMap.TableSize
/-! # Maps have no entries in common -/
set_option autoImplicit false
set_option linter.unusedVariables false
set_option linter.unusedSimpArgs false
namespace Verif.Graph

/-! ### Entries of a list of nodes -/

/-- The nodes have these keys and values. -/
abbrev Ents (h : Heap) (es : List Nat) (l : Entries) : Prop := List.Forall₂ (fun e kv => h[e]? = some (.entry kv.1 kv.2)) es l

theorem entryAt_some {h : Heap} {e : Nat} {kv : BitVec 64 × Ref} : entryAt h e = some kv ↔ h[e]? = some (.entry kv.1 kv.2) := by
  unfold entryAt
  constructor
  · intro x
    split at x
    · rename_i k v hx; cases x; exact hx
    · cases x
  · intro x; rw [x]

theorem ents_iff {h : Heap} {es : List Nat} {l : Entries} : entriesOf h es = some l ↔ Ents h es l := by
  induction es generalizing l with
  | nil =>
    rw [entriesOf]
    constructor
    · intro x; cases x; exact .nil
    · intro x; cases x; rfl
  | cons e es ih =>
    rw [entriesOf]
    constructor
    · intro x
      split at x
      · rename_i kv r h1 h2
        cases x
        exact .cons (entryAt_some.1 h1) (ih.1 h2)
      · cases x
    · intro x
      cases x with
      | cons h1 h2 => rw [entryAt_some.2 h1, ih.2 h2]

theorem Ents.mem {h : Heap} {es : List Nat} {l : Entries} (x : Ents h es l) {e : Nat} (he : e ∈ es) : ∃ kv ∈ l, h[e]? = some (.entry kv.1 kv.2) := by
  induction x with
  | nil => cases he
  | cons h1 _ ih =>
    cases he with
    | head => exact ⟨_, .head _, h1⟩
    | tail _ he => obtain ⟨kv, hk, hx⟩ := ih he; exact ⟨kv, .tail _ hk, hx⟩

theorem Ents.cong {h h' : Heap} {es : List Nat} {l : Entries} (x : Ents h es l) (hx : ∀ e ∈ es, ∀ k v, h[e]? = some (.entry k v) → h'[e]? = some (.entry k v)) :
    Ents h' es l := by
  induction x with
  | nil => exact .nil
  | cons h1 _ ih => exact .cons (hx _ (.head _) _ _ h1) (ih fun e he => hx e (.tail _ he))

theorem Ents.nd {h h' : Heap} {es : List Nat} {l : Entries} (x : Ents h es l) (hx : Nd h h') : ∃ l', Ents h' es l' ∧ l'.map (·.1) = l.map (·.1) := by
  induction x with
  | nil => exact ⟨[], .nil, rfl⟩
  | cons h1 _ ih =>
    obtain ⟨l', h2, h3⟩ := ih
    obtain ⟨v, hv⟩ := hx.entry h1
    exact ⟨(_, v) :: l', .cons hv h2, by simp only [List.map_cons, h3]⟩

theorem Ents.inj {h : Heap} {es : List Nat} {l l' : Entries} (x : Ents h es l) (y : Ents h es l') : l = l' :=
  Option.some.inj ((ents_iff.2 x).symm.trans (ents_iff.2 y))

theorem Ents.ext {h h' : Heap} {es : List Nat} {l : Entries} (x : Ents h es l) (y : Ext h h') : Ents h' es l := x.cong fun e _ k v he => y.get he

/-- Nodes with distinct keys -/
abbrev Own (h : Heap) (es : List Nat) : Prop := ∃ l, Ents h es l ∧ (l.map (·.1)).Nodup

theorem Own.nd {h h' : Heap} {es : List Nat} (x : Own h es) (hx : Nd h h') : Own h' es := by
  obtain ⟨l, h1, h2⟩ := x
  obtain ⟨l', h3, h4⟩ := h1.nd hx
  exact ⟨l', h3, by rw [h4]; exact h2⟩

theorem Own.lt {h : Heap} {es : List Nat} (x : Own h es) {e : Nat} (he : e ∈ es) : e < h.length := by
  obtain ⟨l, h1, _⟩ := x
  obtain ⟨kv, _, h2⟩ := h1.mem he
  exact get_lt h2

theorem Sep.own' {h : Heap} (s : Sep h) {p : Nat} {f : Bool} {tl : Nat} {es : List Nat} (hp : h[p]? = some (.map f tl es)) : Own h es := by
  obtain ⟨l, h1, h2⟩ := s.own p f tl es hp
  exact ⟨l, ents_iff.1 h1, h2⟩

/-! ### Other values for keys -/

theorem upd_keys (k : BitVec 64) (v : Ref) : (l : Entries) → (upd k v l).map (·.1) = if k ∈ l.map (·.1) then l.map (·.1) else l.map (·.1) ++ [k]
  | [] => by simp [upd]
  | e :: r => by
    rw [upd]
    split
    · rename_i hk; simp [hk]
    · rename_i hk
      have hk' : ¬ k = e.1 := fun h => hk h.symm
      simp only [List.map_cons, upd_keys k v r, List.mem_cons, hk', false_or]
      split <;> simp

theorem upd_nodup {k : BitVec 64} {v : Ref} {l : Entries} (h : (l.map (·.1)).Nodup) : ((upd k v l).map (·.1)).Nodup := by
  rw [upd_keys]
  split
  · exact h
  · rename_i hk
    rw [List.nodup_append]
    refine ⟨h, by simp, ?_⟩
    intro a ha b hb e
    simp only [List.mem_singleton] at hb
    subst hb; subst e; exact hk ha

theorem upd_new {k : BitVec 64} {v : Ref} : {l : Entries} → (∀ e ∈ l, e.1 ≠ k) → upd k v l = l ++ [(k, v)]
  | [], _ => rfl
  | e :: r, h => by rw [upd, if_neg (h e (.head _)), upd_new fun x hx => h x (.tail _ hx)]; rfl

theorem upd_same {k : BitVec 64} {v : Ref} : {l : Entries} → (l.map (·.1)).Nodup → (k, v) ∈ l → upd k v l = l
  | e :: r, hn, h => by
    rw [upd]
    split
    · rename_i hk
      cases h with
      | head => rfl
      | tail _ h =>
        simp only [List.map_cons, List.nodup_cons] at hn
        exact absurd (List.mem_map.2 ⟨_, h, hk.symm⟩) hn.1
    · rename_i hk
      cases h with
      | head => exact absurd rfl hk
      | tail _ h =>
        simp only [List.map_cons, List.nodup_cons] at hn
        rw [upd_same hn.2 h]

/-- A node gets another value. -/
theorem Ents.upd {h : Heap} {es : List Nat} {l : Entries} (x : Ents h es l) (hn : (l.map (·.1)).Nodup) {e : Nat} {k : BitVec 64} {v : Ref} (r : Ref)
    (he : e ∈ es) (hk : h[e]? = some (.entry k v)) : Ents (h.set e (.entry k r)) es (Graph.upd k r l) := by
  induction x with
  | nil => cases he
  | cons h1 t ih =>
    rename_i a kv es l
    simp only [List.map_cons, List.nodup_cons] at hn
    have hcong : ∀ {es' l'}, Ents h es' l' → (e ∉ es') → Ents (h.set e (.entry k r)) es' l' := fun y hy => y.cong fun e' he' k' v' hx => by
      rw [get_set_ne (by rintro rfl; exact hy he')]; exact hx
    by_cases hae : a = e
    · subst hae
      rw [h1] at hk
      cases hk
      rw [Graph.upd, if_pos rfl]
      refine .cons (get_set h1) (hcong t fun hm => ?_)
      obtain ⟨kv', hm', hx⟩ := Ents.mem t hm
      rw [h1] at hx
      simp only [Option.some.injEq, Obj.entry.injEq] at hx
      exact hn.1 (List.mem_map.2 ⟨kv', hm', hx.1.symm⟩)
    · have hm : e ∈ es := by
        cases he with
        | head => exact absurd rfl hae
        | tail _ he => exact he
      obtain ⟨kv', hm', hx⟩ := Ents.mem t hm
      rw [hk] at hx
      have hk' : k = kv'.1 := by cases hx; rfl
      rw [Graph.upd, if_neg fun e' => hn.1 (List.mem_map.2 ⟨kv', hm', by rw [← hk', e']⟩)]
      exact .cons (by rw [get_set_ne hae]; exact h1) (ih hn.2 hm)

theorem Ents.snoc {h : Heap} {es : List Nat} {l : Entries} (x : Ents h es l) (k : BitVec 64) (r : Ref) :
    Ents (h ++ [.entry k r]) (es ++ [h.length]) (l ++ [(k, r)]) :=
  List.rel_append (x.ext (Ext.alloc _ _)) (.cons (get_alloc h _) .nil)

theorem forall₂_right' {α β : Type} {R : α → β → Prop} {as : List α} {bs : List β} (h : List.Forall₂ R as bs) {b : β} (hb : b ∈ bs) : ∃ a, R a b := by
  induction h with
  | nil => cases hb
  | cons h1 _ ih =>
    cases hb with
    | head => exact ⟨_, h1⟩
    | tail _ hb => exact ih hb

/-! ### Steps that keep maps apart -/

/-- The node is in no map. -/
def Unowned (h : Heap) (e : Nat) : Prop := ∀ (q : Nat) (f : Bool) (tl : Nat) (es : List Nat), h[q]? = some (.map f tl es) → e ∉ es

theorem Sep.nil : Sep [] := ⟨fun p f tl es h => (by cases h), fun p q f f' tl tl' es es' h => (by cases h), fun p f es h => (by cases h)⟩

theorem Sep.unowned {h : Heap} (s : Sep h) {e : Nat} (he : h.length ≤ e) : Unowned h e := fun q f tl es hq hm =>
  absurd ((s.own' hq).lt hm) (by omega)

/-- Maps, and the keys of their nodes, are as before. -/
theorem Sep.nd {h h' : Heap} (s : Sep h) (x : Nd h h') (hb : ∀ (q : Nat) (f : Bool) (tl : Nat) (es : List Nat), h'[q]? = some (.map f tl es) → h[q]? = some (.map f tl es)) :
    Sep h' where
  own p f tl es hp := by
    obtain ⟨l, h1, h2⟩ := (s.own' (hb _ _ _ _ hp)).nd x
    exact ⟨l, ents_iff.2 h1, h2⟩
  apart p q f f' tl tl' es es' hp hq := s.apart p q f f' tl tl' es es' (hb _ _ _ _ hp) (hb _ _ _ _ hq)
  empty p f es hp := s.empty p f es (hb _ _ _ _ hp)

theorem snoc_map {h : Heap} {o : Obj} (ho : ∀ f tl es, o ≠ .map f tl es) {q : Nat} {f : Bool} {tl : Nat} {es : List Nat}
    (hq : (h ++ [o])[q]? = some (.map f tl es)) : h[q]? = some (.map f tl es) := by
  rcases get_snoc.1 hq with h1 | ⟨_, h1⟩
  · exact h1
  · exact absurd h1.symm (ho _ _ _)

theorem Sep.alloc {h : Heap} (s : Sep h) {o : Obj} (ho : ∀ f tl es, o ≠ .map f tl es) : Sep (h ++ [o]) :=
  s.nd (Ext.alloc _ _).nd fun _ _ _ _ => snoc_map ho

theorem Sep.setEntry {h : Heap} (s : Sep h) {e : Nat} {k : BitVec 64} {v v' : Ref} (he : h[e]? = some (.entry k v)) : Sep (h.set e (.entry k v')) :=
  s.nd (Nd.set he) fun q f tl es hq => by
    rcases get_set_some hq with ⟨rfl, h1⟩ | h1
    · cases h1
    · exact h1.2

theorem Sep.setOther {h : Heap} (s : Sep h) {p : Nat} {o o' : Obj} (hp : h[p]? = some o) (hm : ∀ f tl es, o' ≠ .map f tl es) (he : ∀ k v, o ≠ .entry k v)  :
    Sep (h.set p o') where
  own q f tl es hq := by
    rcases get_set_some hq with ⟨rfl, h1⟩ | ⟨_, h1⟩
    · exact absurd h1.symm (hm _ _ _)
    · obtain ⟨l, h2, h3⟩ := s.own' h1
      refine ⟨l, ents_iff.2 (h2.cong fun e _ k v hx => ?_), h3⟩
      rw [get_set_ne]
      · exact hx
      · rintro rfl; rw [hp] at hx; exact he k v (Option.some.inj hx)
  apart q q' f f' tl tl' es es' hq hq' := by
    rcases get_set_some hq with ⟨rfl, h1⟩ | ⟨_, h1⟩
    · exact absurd h1.symm (hm _ _ _)
    · rcases get_set_some hq' with ⟨rfl, h1'⟩ | ⟨_, h1'⟩
      · exact absurd h1'.symm (hm _ _ _)
      · exact s.apart _ _ _ _ _ _ _ _ h1 h1'
  empty q f es hq := by
    rcases get_set_some hq with ⟨rfl, h1⟩ | ⟨_, h1⟩
    · exact absurd h1.symm (hm _ _ _)
    · exact s.empty _ _ _ h1

/-- A map gets other nodes. -/
theorem Sep.setMap {h : Heap} (s : Sep h) {p : Nat} {o : Obj} (hp : h[p]? = some o) (he : ∀ k v, o ≠ .entry k v) {f : Bool} {tl : Nat} {es : List Nat}
    (ho : Own h es) (hu : ∀ (q : Nat) (f' : Bool) (tl' : Nat) (es' : List Nat), q ≠ p → h[q]? = some (.map f' tl' es') → ∀ e ∈ es, e ∉ es')
    (ht : tl = 0 → es = []) : Sep (h.set p (.map f tl es)) where
  own q f tl es hq := by
    obtain ⟨l, h2, h3⟩ := (show Own h es by
      rcases get_set_some hq with ⟨rfl, h1⟩ | ⟨_, h1⟩
      · cases h1; exact ho
      · exact s.own' h1)
    refine ⟨l, ents_iff.2 (h2.cong fun e _ k v hx => ?_), h3⟩
    rw [get_set_ne]
    · exact hx
    · rintro rfl; rw [hp] at hx; exact he k v (Option.some.inj hx)
  apart q q' f f' tl tl' es1 es2 hq hq' hne := by
    rcases get_set_some hq with ⟨rfl, h1⟩ | ⟨hn, h1⟩
    · rcases get_set_some hq' with ⟨rfl, h1'⟩ | ⟨hn', h1'⟩
      · exact absurd rfl hne
      · cases h1; exact hu _ _ _ _ hn' h1'
    · rcases get_set_some hq' with ⟨rfl, h1'⟩ | ⟨hn', h1'⟩
      · cases h1'; exact fun e he he' => hu _ _ _ _ hn h1 e he' he
      · exact s.apart _ _ _ _ _ _ _ _ h1 h1' hne
  empty q f es hq := by
    rcases get_set_some hq with ⟨rfl, h1⟩ | ⟨_, h1⟩
    · cases h1; exact ht rfl
    · exact s.empty _ _ _ h1

/-- New maps have new nodes. -/
def NewMaps (h h' : Heap) : Prop := ∀ (q : Nat) (f : Bool) (tl : Nat) (es : List Nat), h.length ≤ q → h'[q]? = some (.map f tl es) → ∀ e ∈ es, h.length ≤ e

/-- Existing objects are as before but for values of entries, maps stay apart, and new maps have new nodes. -/
structure W (h h' : Heap) : Prop where
  nd : Nd h h'
  len : h.length ≤ h'.length
  sep : Sep h → Sep h'
  new : NewMaps h h'

theorem W.refl (h : Heap) : W h h :=
  ⟨Nd.refl h, Nat.le_refl _, id, fun q f tl es hq hx => absurd (get_lt hx) (by omega)⟩

theorem Nd.back {h h' : Heap} (x : Nd h h') {q : Nat} {f : Bool} {tl : Nat} {es : List Nat} (hq : q < h.length) (hx : h'[q]? = some (.map f tl es)) :
    h[q]? = some (.map f tl es) := by
  rcases x q _ (List.getElem?_eq_getElem hq) with h1 | ⟨k, v, v', h1, h2⟩
  · rw [h1] at hx; rw [List.getElem?_eq_getElem hq]; exact hx
  · rw [h2] at hx; cases hx

theorem W.trans (a b c : Heap) (x : W a b) (y : W b c) : W a c := by
  refine ⟨Nd.trans _ _ _ x.nd y.nd, Nat.le_trans x.len y.len, y.sep ∘ x.sep, fun q f tl es hq hx e he => ?_⟩
  by_cases hb : q < b.length
  · exact x.new q f tl es hq (y.nd.back hb hx) e he
  · exact Nat.le_trans x.len (y.new q f tl es (by omega) hx e he)

theorem W.alloc (h : Heap) {o : Obj} (ho : ∀ f tl es, o ≠ .map f tl es) : W h (h ++ [o]) := by
  refine ⟨(Ext.alloc _ _).nd, by simp, fun s => s.alloc ho, fun q f tl es hq hx => ?_⟩
  exact absurd (get_lt (snoc_map ho hx)) (by omega)

theorem W.setEntry {h : Heap} {e : Nat} {k : BitVec 64} {v v' : Ref} (he : h[e]? = some (.entry k v)) : W h (h.set e (.entry k v')) := by
  refine ⟨Nd.set he, by simp, fun s => s.setEntry he, fun q f tl es hq hx => ?_⟩
  have := get_lt hx
  rw [List.length_set] at this
  omega

theorem Sep.allocMap {h : Heap} (s : Sep h) {es : List Nat} (ho : Own h es) (hu : ∀ e ∈ es, Unowned h e) (f : Bool) {tl : Nat} (ht : tl = 0 → es = []) : Sep (h ++ [.map f tl es]) where
  own q f' tl' es' hq := by
    have x : Nd h (h ++ [.map f tl es]) := (Ext.alloc _ _).nd
    have : Own (h ++ [.map f tl es]) es' := by
      rcases get_snoc.1 hq with h1 | ⟨_, h1⟩
      · exact (s.own' h1).nd x
      · cases h1; exact ho.nd x
    obtain ⟨l, h2, h3⟩ := this
    exact ⟨l, ents_iff.2 h2, h3⟩
  apart q q' f f' tl tl' es1 es2 hq hq' hne := by
    rcases get_snoc.1 hq with h1 | ⟨e1, h1⟩
    · rcases get_snoc.1 hq' with h1' | ⟨e1', h1'⟩
      · exact s.apart _ _ _ _ _ _ _ _ h1 h1' hne
      · cases h1'; exact fun e he he' => hu e he' _ _ _ _ h1 he
    · rcases get_snoc.1 hq' with h1' | ⟨e1', h1'⟩
      · cases h1; exact fun e he he' => hu e he _ _ _ _ h1' he'
      · exact absurd (e1.trans e1'.symm) hne
  empty q f es hq := by
    rcases get_snoc.1 hq with h1 | ⟨_, h1⟩
    · exact s.empty _ _ _ h1
    · cases h1; exact ht rfl

theorem W.allocMap {h h1 : Heap} (x : W h h1) {es : List Nat} (ho : Own h1 es) (hu : ∀ e ∈ es, Unowned h1 e) (hl : ∀ e ∈ es, h.length ≤ e) (f : Bool) {tl : Nat}
    (ht : tl = 0 → es = []) : W h (h1 ++ [.map f tl es]) := by
  refine ⟨Nd.trans _ _ _ x.nd (Ext.alloc _ _).nd, by have := x.len; simp; omega, fun s => (x.sep s).allocMap ho hu f ht, fun q f' tl' es' hq hx => ?_⟩
  rcases get_snoc.1 hx with h2 | ⟨_, h2⟩
  · exact x.new _ _ _ _ hq h2
  · cases h2; exact hl

/-- `b` is a new node, in no map, with the key that `a` has in `h`. -/
def Twin (h : Heap) (a b : Nat) (h' : Heap) : Prop :=
  ∃ k v v', h[a]? = some (.entry k v) ∧ h'[b]? = some (.entry k v') ∧ Unowned h' b ∧ h.length ≤ b

theorem Unowned.mono {h h' : Heap} {e : Nat} (u : Unowned h e) (he : e < h.length) (x : W h h') : Unowned h' e := by
  intro q f tl es hq hm
  by_cases hl : q < h.length
  · exact u q f tl es (x.nd.back hl hq) hm
  · have := x.new q f tl es (by omega) hq e hm
    omega

theorem Twin.mono {h : Heap} (a b : Nat) (h1 h2 : Heap) (x : W h1 h2) (t : Twin h a b h1) : Twin h a b h2 := by
  obtain ⟨k, v, v', h3, h4, h5, h6⟩ := t
  obtain ⟨w, hw⟩ := x.nd.entry h4
  exact ⟨k, v, w, h3, hw, h5.mono (get_lt h4) x, h6⟩

theorem Twin.own {h h1 : Heap} {es bs : List Nat} (hf : List.Forall₂ (fun a b => Twin h a b h1) es bs) (ho : Own h es) :
    Own h1 bs ∧ (∀ e ∈ bs, Unowned h1 e) ∧ ∀ e ∈ bs, h.length ≤ e := by
  obtain ⟨l, hl, hn⟩ := ho
  have : ∃ l', Ents h1 bs l' ∧ l'.map (·.1) = l.map (·.1) := by
    clear hn
    induction hf generalizing l with
    | nil => cases hl; exact ⟨[], .nil, rfl⟩
    | cons t _ ih =>
      obtain ⟨k, v, v', h3, h4, h5, h6⟩ := t
      cases hl with
      | cons h7 h8 =>
        rw [h3] at h7
        obtain ⟨l', h9, h10⟩ := ih _ h8
        refine ⟨(k, v') :: l', .cons h4 h9, ?_⟩
        simp only [List.map_cons, h10]
        cases h7
        rfl
  obtain ⟨l', h9, h10⟩ := this
  refine ⟨⟨l', h9, by rw [h10]; exact hn⟩, ?_, ?_⟩
  · intro e he
    obtain ⟨a, ⟨k, v, v', h3, h4, h5, h6⟩⟩ := forall₂_right' hf he
    exact h5
  · intro e he
    obtain ⟨a, ⟨k, v, v', h3, h4, h5, h6⟩⟩ := forall₂_right' hf he
    exact h6

end Verif.Graph
