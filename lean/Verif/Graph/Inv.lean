import Verif.Graph.Steps
/-! # The invariant of careful programs -/
set_option autoImplicit false
set_option linter.unusedVariables false
namespace Verif.Graph

/-- References are in range, nodes are entries, nothing but a map refers to its nodes, frozen collections contain frozen
things. -/
structure Inv (h : Heap) : Prop where
  closed : ∀ (p : Nat) (o : Obj), h[p]? = some o → ∀ q, Ref.obj q ∈ o.children → q < h.length
  nodes : ∀ (p : Nat) (f : Bool) (tl : Nat) (es : List Nat), h[p]? = some (.map f tl es) → ∀ e ∈ es, ∃ k v, h[e]? = some (.entry k v)
  own : ∀ (p : Nat) (o : Obj) (q : Nat) (f : Bool) (tl : Nat) (es : List Nat) (e : Nat), h[p]? = some o → Ref.obj e ∈ o.children →
    h[q]? = some (.map f tl es) → e ∈ es → p = q
  deep : LocalDeep h

/-- Nothing refers to the object. -/
def Unref (h : Heap) (b : Nat) : Prop := ∀ (q : Nat) (o : Obj), h[q]? = some o → Ref.obj b ∉ o.children

/-- A node to which at most the map at `p` refers. -/
def Mine (h : Heap) (p e : Nat) : Prop := (∃ k v, h[e]? = some (.entry k v)) ∧
  ∀ (q : Nat) (o : Obj), h[q]? = some o → Ref.obj e ∈ o.children → q = p

theorem get_snoc {h : Heap} {o x : Obj} {p : Nat} : (h ++ [o])[p]? = some x ↔ h[p]? = some x ∨ (p = h.length ∧ x = o) := by
  constructor
  · intro e
    have hl := (List.getElem?_eq_some_iff.1 e).1
    rw [List.length_append, List.length_singleton] at hl
    by_cases hp : p < h.length
    · rw [List.getElem?_append_left hp] at e; exact .inl e
    · have : p = h.length := by omega
      subst this
      rw [get_alloc] at e; cases e; exact .inr ⟨rfl, rfl⟩
  · rintro (e | ⟨rfl, rfl⟩)
    · exact (Ext.alloc _ _).get e
    · exact get_alloc _ _

theorem get_lt {h : Heap} {p : Nat} {o : Obj} (e : h[p]? = some o) : p < h.length := (List.getElem?_eq_some_iff.1 e).1

theorem get_set_some {h : Heap} {o x : Obj} {p q : Nat} (e : (h.set p o)[q]? = some x) :
    (q = p ∧ x = o) ∨ (q ≠ p ∧ h[q]? = some x) := by
  by_cases hq : q = p
  · subst hq
    have hl := get_lt e
    rw [List.length_set] at hl
    rw [List.getElem?_set_self hl] at e
    cases e; exact .inl ⟨rfl, rfl⟩
  · rw [List.getElem?_set_ne (by omega)] at e; exact .inr ⟨hq, e⟩

theorem get_set_ne {h : Heap} {o : Obj} {p q : Nat} (hq : q ≠ p) : (h.set p o)[q]? = h[q]? := by
  rw [List.getElem?_set_ne (by omega)]

/-! ### Frozen values stay frozen -/

theorem Done.set_flagged {h : Heap} {e : Nat} {o o' : Obj} (he : h[e]? = some o) (hf : o.flag = some false) (hw : o.wrapped = none)
    {r : Ref} (d : Done h r) : Done (h.set e o') r := by
  induction d with
  | atom i => exact .atom i
  | flag hp hf' =>
    refine .flag (by rw [get_set_ne]; exact hp; rintro rfl; rw [he] at hp; cases hp; rw [hf] at hf'; cases hf') hf'
  | wrap hp hw' _ ih =>
    refine .wrap (by rw [get_set_ne]; exact hp; rintro rfl; rw [he] at hp; cases hp; rw [hw] at hw'; cases hw') hw' ih

theorem Done.set_node {h : Heap} {p e : Nat} {o' : Obj} {f : Bool} {tl : Nat} {es : List Nat} (hp : h[p]? = some (.map f tl es))
    (m : Mine h p e) {r : Ref} (d : Done h r) (hr : r ≠ .obj e) : Done (h.set e o') r := by
  obtain ⟨⟨k, v, he⟩, hm⟩ := m
  induction d with
  | atom i => exact .atom i
  | @flag p' o hp' hf' =>
    have : p' ≠ e := by rintro rfl; exact hr rfl
    exact .flag (by rw [get_set_ne this]; exact hp') hf'
  | @wrap p' o w hp' hw' _ ih =>
    have : p' ≠ e := by rintro rfl; exact hr rfl
    refine .wrap (by rw [get_set_ne this]; exact hp') hw' (ih ?_)
    rintro rfl
    have := hm p' _ hp' (by rw [wrapped_children hw']; simp)
    subst this
    rw [hp] at hp'; cases hp'; cases hw'

theorem Done.value {h : Heap} {e : Nat} {k : BitVec 64} {v : Ref} (he : h[e]? = some (.entry k v)) (d : Done h (.obj e)) : Done h v := by
  cases d with
  | flag hp hf => rw [he] at hp; cases hp; cases hf
  | wrap hp hw d => rw [he] at hp; cases hp; cases hw; exact d

/-! ### The elementary changes -/

theorem Inv.child {h : Heap} (i : Inv h) {p : Nat} {o : Obj} (hp : h[p]? = some o) (hm : ∀ f tl es, o ≠ .map f tl es) {c : Ref}
    (hc : c ∈ o.children) : Arg h c := by
  rintro q rfl
  refine ⟨i.closed p o hp q hc, fun p' f tl es hp' hq => ?_⟩
  have := i.own p o p' f tl es q hp hc hp' hq
  subst this
  rw [hp] at hp'; cases hp'
  exact hm _ _ _ rfl

theorem Inv.node_mine {h : Heap} (i : Inv h) {p : Nat} {f : Bool} {tl : Nat} {es : List Nat} (hp : h[p]? = some (.map f tl es))
    {e : Nat} (he : e ∈ es) : Mine h p e :=
  ⟨i.nodes p f tl es hp e he, fun q o hq hc => i.own q o p f tl es e hq hc hp he⟩

theorem Inv.alloc {h : Heap} (i : Inv h) {o : Obj}
    (harg : (∀ f tl es, o ≠ .map f tl es) → ∀ c ∈ o.children, Arg h c)
    (hmap : ∀ f tl es, o = .map f tl es → ∀ e ∈ es, (∃ k v, h[e]? = some (.entry k v)) ∧ Unref h e)
    (hdeep : o.flag = some true → ∀ c ∈ o.children, Done h c) : Inv (h ++ [o]) := by
  have hrange : ∀ q, Ref.obj q ∈ o.children → q < h.length := by
    intro q hq
    by_cases hm : ∀ f tl es, o ≠ .map f tl es
    · exact (harg hm _ hq q rfl).1
    · simp only [ne_eq, not_forall, not_not] at hm
      obtain ⟨f, tl, es, rfl⟩ := hm
      simp only [Obj.children, List.mem_map, Ref.obj.injEq, exists_eq_right] at hq
      obtain ⟨⟨k, v, e⟩, _⟩ := hmap f tl es rfl q hq
      exact get_lt e
  refine ⟨?_, ?_, ?_, ?_⟩
  · intro p o' hp q hq
    rw [List.length_append]
    rcases get_snoc.1 hp with hp | ⟨rfl, rfl⟩
    · exact Nat.lt_of_lt_of_le (i.closed p o' hp q hq) (Nat.le_add_right _ _)
    · exact Nat.lt_of_lt_of_le (hrange q hq) (Nat.le_add_right _ _)
  · intro p f tl es hp e he
    rcases get_snoc.1 hp with hp | ⟨rfl, rfl⟩
    · obtain ⟨k, v, x⟩ := i.nodes p f tl es hp e he
      exact ⟨k, v, (Ext.alloc _ _).get x⟩
    · obtain ⟨⟨k, v, x⟩, _⟩ := hmap f tl es rfl e he
      exact ⟨k, v, (Ext.alloc _ _).get x⟩
  · intro p o' q f tl es e hp hc hq he
    rcases get_snoc.1 hp with hp1 | ⟨rfl, rfl⟩ <;> rcases get_snoc.1 hq with hq1 | ⟨rfl, rfl⟩
    · exact i.own p o' q f tl es e hp1 hc hq1 he
    · exact absurd hc ((hmap f tl es rfl e he).2 p o' hp1)
    · by_cases hm : ∀ f tl es, o' ≠ .map f tl es
      · exact absurd he ((harg hm _ hc e rfl).2 q f tl es hq1)
      · simp only [ne_eq, not_forall, not_not] at hm
        obtain ⟨f', tl', es', rfl⟩ := hm
        simp only [Obj.children, List.mem_map, Ref.obj.injEq, exists_eq_right] at hc
        refine absurd ?_ ((hmap f' tl' es' rfl e hc).2 q _ hq1)
        simp only [Obj.children, List.mem_map, Ref.obj.injEq, exists_eq_right]; exact he
    · rfl
  · exact (Cp.alloc hdeep).localDeep i.deep

theorem Inv.setArr {h : Heap} (i : Inv h) {p : Nat} {es es' : List Ref} (hp : h[p]? = some (.arr false es))
    (ha : ∀ c ∈ es', Arg h c) : Inv (h.set p (.arr false es')) := by
  refine ⟨?_, ?_, ?_, ?_⟩
  · intro q o hq c hc
    rw [List.length_set]
    rcases get_set_some hq with ⟨rfl, rfl⟩ | ⟨_, hq⟩
    · exact (ha _ hc c rfl).1
    · exact i.closed q o hq c hc
  · intro q f tl es hq e he
    rcases get_set_some hq with ⟨rfl, y⟩ | ⟨_, hq⟩
    · cases y
    · obtain ⟨k, v, x⟩ := i.nodes q f tl es hq e he
      refine ⟨k, v, ?_⟩
      rw [get_set_ne]; exact x
      rintro rfl; rw [hp] at x; cases x
  · intro q o q' f tl es e hq hc hq' he
    rcases get_set_some hq' with ⟨rfl, y⟩ | ⟨_, hq1⟩
    · cases y
    rcases get_set_some hq with ⟨rfl, rfl⟩ | ⟨_, hq⟩
    · exact absurd he ((ha _ hc e rfl).2 q' f tl es hq1)
    · exact i.own q o q' f tl es e hq hc hq1 he
  · intro q o hq hf c hc
    rcases get_set_some hq with ⟨rfl, rfl⟩ | ⟨_, hq⟩
    · cases hf
    · exact (i.deep q o hq hf c hc).set_flagged hp rfl rfl

theorem Inv.setMap {h : Heap} (i : Inv h) {p : Nat} {tl : Nat} {es : List Nat} (hp : h[p]? = some (.map false tl es))
    {fr : Bool} {tl' : Nat} {es' : List Nat} (hm : ∀ e ∈ es', Mine h p e) (hd : fr = true → ∀ e ∈ es', Done h (.obj e)) :
    Inv (h.set p (.map fr tl' es')) := by
  refine ⟨?_, ?_, ?_, ?_⟩
  · intro q o hq c hc
    rw [List.length_set]
    rcases get_set_some hq with ⟨rfl, rfl⟩ | ⟨_, hq⟩
    · simp only [Obj.children, List.mem_map, Ref.obj.injEq, exists_eq_right] at hc
      obtain ⟨⟨k, v, x⟩, _⟩ := hm c hc
      exact get_lt x
    · exact i.closed q o hq c hc
  · intro q f tl es hq e he
    have : ∃ k v, h[e]? = some (.entry k v) := by
      rcases get_set_some hq with ⟨rfl, y⟩ | ⟨_, hq⟩
      · cases y; exact (hm e he).1
      · exact i.nodes q f tl es hq e he
    obtain ⟨k, v, x⟩ := this
    refine ⟨k, v, ?_⟩
    rw [get_set_ne]; exact x
    rintro rfl; rw [hp] at x; cases x
  · intro q o q' f tl2 es2 e hq hc hq' he
    rcases get_set_some hq' with ⟨rfl, y⟩ | ⟨_, hq1⟩
    · cases y
      rcases get_set_some hq with ⟨rfl, rfl⟩ | ⟨_, hq⟩
      · rfl
      · exact (hm e he).2 q o hq hc
    · rcases get_set_some hq with ⟨rfl, rfl⟩ | ⟨_, hq⟩
      · simp only [Obj.children, List.mem_map, Ref.obj.injEq, exists_eq_right] at hc
        refine ((hm e hc).2 q' _ hq1 ?_).symm
        simp only [Obj.children, List.mem_map, Ref.obj.injEq, exists_eq_right]; exact he
      · exact i.own q o q' f tl2 es2 e hq hc hq1 he
  · intro q o hq hf c hc
    rcases get_set_some hq with ⟨rfl, rfl⟩ | ⟨_, hq⟩
    · cases hf
      simp only [Obj.children, List.mem_map] at hc
      obtain ⟨e, he, rfl⟩ := hc
      exact (hd rfl e he).set_flagged hp rfl rfl
    · exact (i.deep q o hq hf c hc).set_flagged hp rfl rfl

theorem Mine.setMap {h : Heap} {p : Nat} {f : Bool} {tl : Nat} {es : List Nat} (hp : h[p]? = some (.map f tl es)) {fr : Bool} {tl' : Nat}
    {es' : List Nat} {e : Nat} (m : Mine h p e) : Mine (h.set p (.map fr tl' es')) p e := by
  obtain ⟨⟨k, v, x⟩, hm⟩ := m
  refine ⟨⟨k, v, ?_⟩, fun q o hq hc => ?_⟩
  · rw [get_set_ne]; exact x
    rintro rfl; rw [hp] at x; cases x
  · rcases get_set_some hq with ⟨rfl, rfl⟩ | ⟨_, hq⟩
    · rfl
    · exact hm q o hq hc

theorem Mine.arg_ne {h : Heap} {p : Nat} {f : Bool} {tl : Nat} {es : List Nat} (hp : h[p]? = some (.map f tl es)) {a e : Nat}
    (m : Mine h p e) {k : BitVec 64} {v : Ref} (ha : h[a]? = some (.entry k v)) : v ≠ .obj e := by
  rintro rfl
  have := m.2 a _ ha (by simp [Obj.children])
  subst this
  rw [hp] at ha; cases ha

theorem Inv.setNode {h : Heap} (i : Inv h) {p : Nat} {tl : Nat} {es : List Nat} (hp : h[p]? = some (.map false tl es))
    {e : Nat} (m : Mine h p e) {k : BitVec 64} {r : Ref} (ha : Arg h r) : Inv (h.set e (.entry k r)) := by
  have m' := m
  obtain ⟨⟨k0, v0, x⟩, hm⟩ := m'
  refine ⟨?_, ?_, ?_, ?_⟩
  · intro q o hq c hc
    rw [List.length_set]
    rcases get_set_some hq with ⟨rfl, rfl⟩ | ⟨_, hq⟩
    · simp only [Obj.children, List.mem_singleton] at hc
      exact (ha _ hc.symm).1
    · exact i.closed q o hq c hc
  · intro q f tl es hq e' he
    rcases get_set_some hq with ⟨rfl, y⟩ | ⟨_, hq⟩
    · cases y
    · obtain ⟨k', v', x⟩ := i.nodes q f tl es hq e' he
      by_cases hee : e' = e
      · subst hee; exact ⟨k, r, get_set x⟩
      · exact ⟨k', v', by rw [get_set_ne hee]; exact x⟩
  · intro q o q' f tl es e' hq hc hq' he
    rcases get_set_some hq' with ⟨rfl, y⟩ | ⟨_, hq1⟩
    · cases y
    rcases get_set_some hq with ⟨rfl, rfl⟩ | ⟨_, hq⟩
    · simp only [Obj.children, List.mem_singleton] at hc
      exact absurd he ((ha e' hc.symm).2 q' f tl es hq1)
    · exact i.own q o q' f tl es e' hq hc hq1 he
  · intro q o hq hf c hc
    rcases get_set_some hq with ⟨rfl, rfl⟩ | ⟨_, hq⟩
    · cases hf
    · refine (i.deep q o hq hf c hc).set_node hp m ?_
      rintro rfl
      have := hm q o hq hc
      subst this
      rw [hp] at hq; cases hq; cases hf

theorem Mine.setNode {h : Heap} {p e e' : Nat} (m : Mine h p e') {k k0 : BitVec 64} {v r : Ref} (he : h[e]? = some (.entry k0 v))
    (hr : r ≠ .obj e') : Mine (h.set e (.entry k r)) p e' := by
  obtain ⟨⟨k1, v1, x⟩, hm⟩ := m
  refine ⟨?_, fun q o hq hc => ?_⟩
  · by_cases hee : e' = e
    · subst hee; exact ⟨k, r, get_set he⟩
    · exact ⟨k1, v1, by rw [get_set_ne hee]; exact x⟩
  · rcases get_set_some hq with ⟨rfl, rfl⟩ | ⟨_, hq⟩
    · simp only [Obj.children, List.mem_singleton] at hc
      exact absurd hc.symm hr
    · exact hm q o hq hc

/-! ### Growth: only new objects -/

/-- New objects only, which refer to objects that were referred to before, to the roots, or to new objects. -/
structure Gr (S : Ref → Prop) (h h' : Heap) : Prop where
  ext : Ext h h'
  inv : Inv h → Inv h'
  fresh : ∀ (q : Nat) (f : Bool) (tl : Nat) (es : List Nat), h.length ≤ q → h'[q]? = some (.map f tl es) → ∀ e ∈ es, h.length ≤ e
  unref : ∀ b, b < h.length → Unref h b → ¬ S (.obj b) → Unref h' b

theorem Gr.refl (S : Ref → Prop) (h : Heap) : Gr S h h :=
  ⟨Ext.rfl' h, id, fun q f tl es hq e => absurd (get_lt e) (by omega), fun _ _ u _ => u⟩

theorem Ext.back {h h' : Heap} (x : Ext h h') {p : Nat} {o : Obj} (hp : p < h.length) (e : h'[p]? = some o) : h[p]? = some o := by
  have e2 := List.getElem?_eq_getElem hp
  have := x.get e2
  rw [e] at this; cases this; exact e2

theorem Gr.trans (S : Ref → Prop) (a b c : Heap) (x : Gr S a b) (y : Gr S b c) : Gr S a c := by
  have hl := x.ext.length_le
  refine ⟨Ext.trans' _ _ _ x.ext y.ext, fun i => y.inv (x.inv i), fun q f tl es hq e e' he' => ?_, fun b' hb u hs => ?_⟩
  · by_cases hqb : b.length ≤ q
    · have := y.fresh q f tl es hqb e e' he'; omega
    · exact x.fresh q f tl es hq (y.ext.back (by omega) e) e' he'
  · exact y.unref b' (by omega) (x.unref b' hb u hs) hs

theorem Gr.mono {S T : Ref → Prop} {a b : Heap} (x : Gr S a b) (h : ∀ r, S r → T r) : Gr T a b :=
  ⟨x.ext, x.inv, x.fresh, fun b' hb u hs => x.unref b' hb u fun s => hs (h _ s)⟩

theorem Gr.arg {S : Ref → Prop} {h h' : Heap} (x : Gr S h h') {r : Ref} (a : Arg h r) : Arg h' r := by
  rintro q rfl
  obtain ⟨h1, h2⟩ := a q rfl
  have hl := x.ext.length_le
  refine ⟨by omega, fun p f tl es hp hq => ?_⟩
  by_cases hpl : h.length ≤ p
  · have := x.fresh p f tl es hpl hp q hq; omega
  · exact h2 p f tl es (x.ext.back (by omega) hp) hq

/-- One more object that is not a map. -/
theorem Gr.snoc {S : Ref → Prop} {h h1 : Heap} (x : Gr S h h1) {o : Obj} (hm : ∀ f tl es, o ≠ .map f tl es)
    (harg : ∀ c ∈ o.children, Arg h1 c) (hdeep : o.flag = some true → ∀ c ∈ o.children, Done h1 c)
    (hu : ∀ b, b < h.length → Unref h b → ¬ S (.obj b) → Ref.obj b ∉ o.children) : Gr S h (h1 ++ [o]) := by
  refine ⟨x.ext.snoc o, fun i => (x.inv i).alloc (fun _ => harg) (fun f tl es e => absurd e (hm f tl es)) hdeep, ?_, ?_⟩
  · intro q f tl es hq e e' he'
    rcases get_snoc.1 e with e | ⟨rfl, rfl⟩
    · exact x.fresh q f tl es hq e e' he'
    · exact absurd rfl (hm f tl es)
  · intro b hb u hs q o' hq
    rcases get_snoc.1 hq with hq | ⟨rfl, rfl⟩
    · exact x.unref b hb u hs q o' hq
    · exact hu b hb u hs

/-- One more map, with new nodes. -/
theorem Gr.snocMap {S : Ref → Prop} {h h1 : Heap} (x : Gr S h h1) {fr : Bool} {tl : Nat} {es : List Nat}
    (hn : ∀ e ∈ es, h.length ≤ e ∧ (∃ k v, h1[e]? = some (.entry k v)) ∧ Unref h1 e)
    (hdeep : fr = true → ∀ e ∈ es, Done h1 (.obj e)) : Gr S h (h1 ++ [.map fr tl es]) := by
  refine ⟨x.ext.snoc _, fun i => (x.inv i).alloc (fun h => absurd rfl (h _ _ _)) (fun f tl es e => ?_) ?_, ?_, ?_⟩
  · cases e; exact fun e he => (hn e he).2
  · intro hf c hc
    cases hf
    simp only [Obj.children, List.mem_map] at hc
    obtain ⟨e, he, rfl⟩ := hc
    exact hdeep rfl e he
  · intro q f tl es hq e e' he'
    rcases get_snoc.1 e with e | ⟨rfl, y⟩
    · exact x.fresh q f tl es hq e e' he'
    · cases y; exact (hn e' he').1
  · intro b hb u hs q o' hq
    rcases get_snoc.1 hq with hq | ⟨rfl, rfl⟩
    · exact x.unref b hb u hs q o' hq
    · intro hc
      simp only [Obj.children, List.mem_map, Ref.obj.injEq, exists_eq_right] at hc
      have := (hn b hc).1; omega

theorem Gr.unref' {h h' : Heap} (x : Gr (fun _ => False) h h') {b : Nat} (hb : b < h.length) (u : Unref h b) : Unref h' b :=
  x.unref b hb u id

/-- A new object that nothing refers to. -/
theorem Inv.unref_new {h : Heap} (i : Inv h) (o : Obj) (hc : ∀ q, Ref.obj q ∈ o.children → q < h.length) : Unref (h ++ [o]) h.length := by
  intro q o' hq hb
  rcases get_snoc.1 hq with hq | ⟨rfl, rfl⟩
  · have := i.closed q o' hq _ hb; omega
  · have := hc _ hb; omega

/-- A result of a copy: the old objects it may be are `r`, and those that something referred to. -/
def From (h : Heap) (r r' : Ref) : Prop := ∀ b, b < h.length → Unref h b → r ≠ .obj b → r' ≠ .obj b

theorem isFrozen_same (n : Nat) (r : Ref) (h : Heap) : Tri h (isFrozen n r) (fun b h' => h' = h ∧ (b = true ↔ Done h r)) (fun h' => h' = h) := by
  refine ⟨fun b h' e => isFrozen_pure n e, ?_⟩
  induction n generalizing r with
  | zero => intro h' e; cases r <;> cases e
  | succ m ihm =>
    intro h' e
    cases r with
    | atom i => cases e
    | obj p' =>
      match hp' : h[p']? with
      | none => rw [isFrozen, M.bind_panic (load_run_none hp')] at e; cases e; rfl
      | some o' =>
        rw [isFrozen, M.bind_ok (load_run hp')] at e
        cases o' <;> first | exact ihm _ _ e | cases e

/-- The loop over the nodes of a map: new nodes with new values. -/
theorem renodes {h : Heap} (S : Ref → Prop) (hS : ∀ b, h.length ≤ b → ¬ S (.obj b)) (i : Inv h) {es : List Nat} (f : BitVec 64 → Ref → M Heap Ref) {D : Heap → Ref → Prop}
    (hD : ∀ h h' r, Ext h h' → D h r → D h' r)
    (hes : ∀ e ∈ es, ∃ k v, h[e]? = some (.entry k v))
    (hf : ∀ e ∈ es, ∀ k v h1, h[e]? = some (.entry k v) → Gr S h h1 → Inv h1 →
      Tri h1 (f k v) (fun v' h2 => Gr S h1 h2 ∧ Arg h2 v' ∧ D h2 v' ∧ ∀ b, b < h1.length → Unref h1 b → ¬ S (.obj b) → v' ≠ .obj b) (Gr S h1)) :
    Tri h (mapEach (fun e => do
        let kv ← loadEntry e
        let v' ← f kv.1 kv.2
        Graph.alloc (.entry kv.1 v')) es)
      (fun es' h' => Gr S h h' ∧ ∀ e' ∈ es', h.length ≤ e' ∧ Unref h' e' ∧ ∃ k v, h'[e']? = some (.entry k v) ∧ D h' v)
      (Gr S h) := by
  have := Tri.mapEach (f := fun e => do
        let kv ← loadEntry e
        let v' ← f kv.1 kv.2
        Graph.alloc (.entry kv.1 v')) (h := h) (R := Gr S)
      (Q' := fun _ e' h' => h.length ≤ e' ∧ Unref h' e' ∧ ∃ k v, h'[e']? = some (.entry k v) ∧ D h' v)
      (Gr.refl _) (Gr.trans _) ?_ es ?_
  · exact this.conseq (fun es' h' x => ⟨x.1, fun e' he' => forall₂_right (P := fun e' => h.length ≤ e' ∧ Unref h' e' ∧
      ∃ k v, h'[e']? = some (.entry k v) ∧ D h' v) x.2 he'⟩) (fun _ x => x)
  · rintro a b h1 h2 x ⟨hb, u, k, v, e, d⟩
    exact ⟨hb, x.unref _ (get_lt e) u (hS _ hb), k, v, x.ext.get e, hD _ _ _ x.ext d⟩
  · intro e he h1 x
    have i1 := x.inv i
    refine Tri.loadEntry_bind (fun k v hkv => ?_) (Gr.refl _ _)
    have hkv0 : h[e]? = some (.entry k v) := by
      obtain ⟨k', v', e'⟩ := hes e he
      have := x.ext.get e'
      rw [hkv] at this; cases this; exact e'
    refine Tri.bind (hf e he k v h1 hkv0 x i1) (fun v' h2 y => ?_) (fun _ y => y)
    obtain ⟨y, ya, yd, yf⟩ := y
    have i2 := y.inv i1
    refine Tri.alloc ⟨?_, ?_, ?_, k, v', get_alloc _ _, hD _ _ _ (Ext.alloc _ _) yd⟩
    · refine y.snoc (by simp) ?_ (by simp [Obj.flag]) ?_
      · intro c hc
        simp only [Obj.children, List.mem_singleton] at hc
        subst hc; exact ya
      · intro b hb u hs hc
        simp only [Obj.children, List.mem_singleton] at hc
        exact yf b hb u hs hc.symm
    · have h1 := x.ext.length_le
      have h2 := y.ext.length_le
      omega
    · refine i2.unref_new _ fun q hq => ?_
      simp only [Obj.children, List.mem_singleton] at hq
      exact (ya q hq.symm).1

theorem renode_inv {h : Heap} (i : Inv h) {es : List Nat} (hes : ∀ e ∈ es, ∃ k v, h[e]? = some (.entry k v)) (D : Ref → Prop) (hD : ∀ e ∈ es, ∀ k v, h[e]? = some (.entry k v) → D v) :
    Tri h (renode es)
      (fun es' h' => Gr (fun _ => False) h h' ∧ ∀ e' ∈ es', h.length ≤ e' ∧ Unref h' e' ∧ ∃ k v, h'[e']? = some (.entry k v) ∧ D v)
      (Gr (fun _ => False) h) := by
  refine (renodes (fun _ => False) (by simp) i (fun k v => pure v) (D := fun _ => D) (fun _ _ _ _ => id) hes ?_)
  intro e he k v h1 hkv x i1
  refine Tri.pure ⟨Gr.refl _ _, x.arg (i.child hkv (by simp) (by simp [Obj.children])), hD e he k v hkv, ?_⟩
  rintro b hb u - rfl
  exact u e _ (x.ext.get hkv) (by simp [Obj.children])

theorem frozenCopy_inv (n : Nat) {r : Ref} {h : Heap} (i : Inv h) (ha : Arg h r) :
    Tri h (frozenCopy n r) (fun r' h' => Gr (fun x => x = r) h h' ∧ Arg h' r' ∧ Done h' r' ∧ From h r r') (Gr (fun x => x = r) h) := by
  induction n generalizing r h with
  | zero =>
    cases r with
    | atom j => exact Tri.pure ⟨Gr.refl _ h, fun q e => (by cases e), .atom j, fun b _ _ _ e => by cases e⟩
    | obj p => exact Tri.loop
  | succ n ih =>
    cases r with
    | atom j => exact Tri.pure ⟨Gr.refl _ h, fun q e => (by cases e), .atom j, fun b _ _ _ e => by cases e⟩
    | obj p =>
      -- the value itself
      have self : Done h (.obj p) → Tri h (pure (Ref.obj p)) (fun r' h' => Gr (fun x => x = .obj p) h h' ∧ Arg h' r' ∧ Done h' r' ∧ From h (.obj p) r')
          (Gr (fun x => x = .obj p) h) := fun d => Tri.pure ⟨Gr.refl _ h, ha, d, fun b _ _ e => e⟩
      -- a new object
      have fresh : ∀ (h1 : Heap), Ext h h1 → From h (.obj p) (.obj h1.length) := by
        intro h1 x b hb u _ e
        cases e
        have := x.length_le; omega
      have argnew : ∀ (h1 : Heap) (o : Obj), Inv h1 → (∀ q, Ref.obj q ∈ o.children → q < h1.length) → (∀ f tl es, o = .map f tl es → ∀ e ∈ es, e < h1.length) → Arg (h1 ++ [o]) (.obj h1.length) := by
        rintro h1 o i1 hc hm q ⟨⟩
        refine ⟨by simp, fun q f tl es hq he => ?_⟩
        rcases get_snoc.1 hq with hq | ⟨rfl, rfl⟩
        · obtain ⟨k, v, e⟩ := i1.nodes q f tl es hq _ he
          have := get_lt e; omega
        · have := hm f tl es rfl _ he; omega
      refine Tri.load_bind (fun o ho => ?_) (Gr.refl _ _)
      have wrapcase : ∀ (v : Ref) (mk : Ref → Obj), o.wrapped = some v → (∀ v, (mk v).wrapped = some v) → (∀ v, (mk v).flag = none) →
          (∀ v f tl es, mk v ≠ .map f tl es) → (∀ f tl es, o ≠ .map f tl es) →
          Tri h (isFrozen n v >>= fun b => if b then pure (Ref.obj p) else
                frozenCopy n v >>= fun v' => Graph.alloc (mk v') >>= fun q => pure (Ref.obj q))
            (fun r' h' => Gr (fun x => x = .obj p) h h' ∧ Arg h' r' ∧ Done h' r' ∧ From h (.obj p) r') (Gr (fun x => x = .obj p) h) := by
        intro v mk hv hmk hmf hmm hom
        refine Tri.bind (isFrozen_same n v h) ?_ (fun _ x => x ▸ Gr.refl _ _)
        rintro b h' ⟨rfl, hb⟩
        cases b with
        | true => exact self (.wrap ho hv (hb.1 rfl))
        | false =>
          simp only [Bool.false_eq_true, if_false]
          have hvc : v ∈ o.children := by rw [wrapped_children hv]; simp
          have nov : ∀ b, Unref h' b → v ≠ .obj b := by rintro b u rfl; exact u p o ho hvc
          have gr : ∀ {h2}, Gr (fun x => x = v) h' h2 → Gr (fun x => x = .obj p) h' h2 := by
            intro h2 x
            exact ⟨x.ext, x.inv, x.fresh, fun b hb u _ => x.unref b hb u fun e => nov b u e.symm⟩
          refine Tri.bind (ih i (i.child ho hom hvc)) (fun v' h2 x => ?_) (fun _ x => gr x)
          obtain ⟨x, xa, xd, xf⟩ := x
          have ch : ∀ c, c ∈ (mk v').children → c = v' := by
            intro c hc; rw [wrapped_children (hmk v')] at hc; simpa using hc
          refine Tri.alloc_bind (Tri.pure ⟨?_, ?_, ?_, fresh _ x.ext⟩)
          · refine (gr x).snoc (hmm v') (fun c hc => ch c hc ▸ xa) (by rw [hmf]; simp) ?_
            intro b hb u _ hc
            exact xf b hb u (nov b u) (ch _ hc).symm
          · refine argnew h2 _ (x.inv i) (fun q hq => ?_) (fun f tl es e => absurd e (hmm v' f tl es))
            exact (xa q (ch _ hq).symm).1
          · exact .wrap (get_alloc _ _) (hmk v') ((Ext.alloc _ _).done xd)
      cases o with
      | arr f es =>
        cases f
        · simp only [Bool.false_eq_true, if_false]
          have nov : ∀ h1, Ext h h1 → ∀ a ∈ es, ∀ b, Unref h1 b → a ≠ .obj b := by
            rintro h1 x a ha' b u rfl; exact u p _ (x.get ho) ha'
          refine Tri.bind (Tri.mapEach (R := Gr fun _ => False) (Q' := fun a b h1 => Arg h1 b ∧ Done h1 b ∧ ∀ b', b' < h.length → Unref h b' → b ≠ .obj b')
            (Gr.refl _) (Gr.trans _) (fun a b h1 h2 x y => ⟨x.arg y.1, x.ext.done y.2.1, y.2.2⟩) es (fun a ha' h1 x => ?_)) (fun es' h1 x => ?_) (fun _ x => x.mono (by simp))
          · have i1 := x.inv i
            refine (ih i1 (i1.child (x.ext.get ho) (by simp) ha')).conseq ?_ ?_
            · rintro r' h2 ⟨y, ya, yd, yf⟩
              refine ⟨⟨y.ext, y.inv, y.fresh, fun b hb u _ => y.unref b hb u fun e => nov h1 x.ext a ha' b u e.symm⟩, ya, yd, fun b hb u => ?_⟩
              have u1 := x.unref' hb u
              have := x.ext.length_le
              exact yf b (by omega) u1 (nov h1 x.ext a ha' b u1)
            · intro h2 y
              exact ⟨y.ext, y.inv, y.fresh, fun b hb u _ => y.unref b hb u fun e => nov h1 x.ext a ha' b u e.symm⟩
          · obtain ⟨x, q⟩ := x
            have q := fun c (hc : c ∈ es') => forall₂_right (P := fun b => Arg h1 b ∧ Done h1 b ∧ ∀ b', b' < h.length → Unref h b' → b ≠ .obj b') q hc
            refine Tri.alloc_bind (Tri.pure ⟨?_, ?_, ?_, fresh _ x.ext⟩)
            · refine (x.mono (by simp)).snoc (by simp) (fun c hc => (q c hc).1) (fun _ c hc => (q c hc).2.1) ?_
              intro b hb u _ hc
              exact (q _ hc).2.2 b hb u rfl
            · exact argnew h1 _ (x.inv i) (fun c hc => ((q _ hc).1 c rfl).1) (by simp)
            · exact .flag (get_alloc _ _) rfl
        · exact self (.flag ho rfl)
      | map f tl es =>
        cases f
        · simp only [Bool.false_eq_true, if_false]
          refine Tri.bind (renodes (fun _ => False) (by simp) i (fun _ v => frozenCopy n v) (D := Done) (fun _ _ _ x => x.done) (i.nodes p _ _ _ ho) ?_) (fun es' h1 x => ?_) (fun _ x => x.mono (by simp))
          · intro e he k v h1 hkv x i1
            have hkv1 := x.ext.get hkv
            have nov : ∀ b, Unref h1 b → v ≠ .obj b := by
              rintro b u rfl; exact u e _ hkv1 (by simp [Obj.children])
            refine (ih i1 (i1.child hkv1 (by simp) (by simp [Obj.children]))).conseq ?_ ?_
            · rintro r' h2 ⟨y, ya, yd, yf⟩
              exact ⟨⟨y.ext, y.inv, y.fresh, fun b hb u _ => y.unref b hb u fun e => nov b u e.symm⟩, ya, yd, fun b hb u _ => yf b hb u (nov b u)⟩
            · intro h2 y
              exact ⟨y.ext, y.inv, y.fresh, fun b hb u _ => y.unref b hb u fun e => nov b u e.symm⟩
          · obtain ⟨x, q⟩ := x
            refine Tri.alloc_bind (Tri.pure ⟨?_, ?_, ?_, fresh _ x.ext⟩)
            · refine (x.mono (by simp)).snocMap ?_ ?_
              · intro e he
                obtain ⟨h1, h2, k, v, h3, h4⟩ := q e he
                exact ⟨h1, ⟨k, v, h3⟩, h2⟩
              · intro _ e he
                obtain ⟨h1, h2, k, v, h3, h4⟩ := q e he
                exact .wrap h3 rfl h4
            · have hr : ∀ e ∈ es', e < h1.length := by
                intro e he
                obtain ⟨h1, h2, k, v, h3, h4⟩ := q e he
                exact get_lt h3
              refine argnew h1 _ (x.inv i) (fun c hc => ?_) (fun f tl es e => by cases e; exact hr)
              simp only [Obj.children, List.mem_map, Ref.obj.injEq, exists_eq_right] at hc
              exact hr c hc
            · exact .flag (get_alloc _ _) rfl
        · exact self (.flag ho rfl)
      | bin f bs =>
        cases f
        · refine Tri.alloc_bind (Tri.pure ⟨?_, ?_, .flag (get_alloc _ _) rfl, fresh _ (Ext.rfl' h)⟩)
          · exact (Gr.refl _ h).snoc (by simp) (by simp [Obj.children]) (by simp [Obj.children]) (by simp [Obj.children])
          · exact argnew h _ i (by simp [Obj.children]) (by simp)
        · exact self (.flag ho rfl)
      | entry k v => exact wrapcase v (.entry k) rfl (fun _ => rfl) (fun _ => rfl) (by simp) (by simp)
      | sens v => exact wrapcase v .sens rfl (fun _ => rfl) (fun _ => rfl) (by simp) (by simp)
      | native j => exact Tri.throw (Gr.refl _ _)

end Verif.Graph
