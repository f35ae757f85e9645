import Verif.Graph.SepOps
/-! # What each call does to what there is -/
set_option autoImplicit false
set_option linter.unusedVariables false
set_option linter.unusedSimpArgs false
namespace Verif.Graph

/-- Every object is as before. -/
def Keeps (h h' : Heap) : Prop := ∀ (q : Nat) (o : Obj), h[q]? = some o → h'[q]? = some o

theorem Keeps.of_we {h h' : Heap} (w : WE h h') : Keeps h h' := fun _ _ e => w.1.get e

/-- The collections but that at `p` contain what they did. -/
def Same (p : Option Nat) (h h' : Heap) : Prop := ∀ (q : Nat) (i : Inside), p ≠ some q → inside h q = some i → inside h' q = some i

theorem inside_map {h : Heap} {q : Nat} {f : Bool} {tl : Nat} {es : List Nat} (hq : h[q]? = some (.map f tl es)) : inside h q = some (.map (entriesOf h es)) := by
  unfold inside; rw [hq]

/-- Objects that are as before, and with nodes as before, contain what they did. -/
theorem same_of {p : Option Nat} {h h' : Heap} (s : Sep h)
    (hk : ∀ (q : Nat) (o : Obj), p ≠ some q → h[q]? = some o → (∀ k v, o ≠ .entry k v) → h'[q]? = some o ∨ h'[q]? = some o.froze)
    (hn : ∀ (q : Nat) (f : Bool) (tl : Nat) (es : List Nat), p ≠ some q → h[q]? = some (.map f tl es) → ∀ e ∈ es, ∀ k v, h[e]? = some (.entry k v) → h'[e]? = some (.entry k v)) :
    Same p h h' := by
  intro q i hq hi
  unfold inside at hi
  cases ho : h[q]? with
  | none => rw [ho] at hi; cases hi
  | some o =>
    rw [ho] at hi
    cases o with
    | arr f es =>
      cases hi
      unfold inside
      rcases hk q _ hq ho (fun _ _ h => by cases h) with h1 | h1 <;> simp only [h1, Obj.froze]
    | map f tl es =>
      obtain ⟨l, hl, _⟩ := s.own' ho
      have hl' := hl.cong (h' := h') fun e he k v hx => hn q f tl es hq ho e he k v hx
      dsimp only at hi
      rw [ents_iff.2 hl] at hi
      unfold inside
      rcases hk q _ hq ho (fun _ _ h => by cases h) with h1 | h1 <;> rw [h1] <;> dsimp only [Obj.froze] <;> rw [ents_iff.2 hl'] <;> exact hi
    | bin f bs =>
      cases hi
      unfold inside
      rcases hk q _ hq ho (fun _ _ h => by cases h) with h1 | h1 <;> simp only [h1, Obj.froze]
    | entry k v => cases hi
    | sens v => cases hi
    | native i => cases hi

theorem Keeps.same {h h' : Heap} (k : Keeps h h') (s : Sep h) (p : Option Nat) : Same p h h' :=
  same_of s (fun q o _ ho _ => .inl (k q o ho)) fun q f tl es _ hq e he k' v hx => k e _ hx

theorem Frame.same {p tl : Nat} {f : Bool} {es : List Nat} {h h' : Heap} (x : Frame p es h h') (s : Sep h) (hp : h[p]? = some (.map f tl es)) : Same (some p) h h' := by
  have hnode : ∀ e ∈ es, ∃ k v, h[e]? = some (.entry k v) := fun e he => by
    obtain ⟨l, hl, _⟩ := s.own' hp
    obtain ⟨kv, _, hx⟩ := hl.mem he
    exact ⟨_, _, hx⟩
  refine same_of s (fun q o hq ho hne => .inl (x q o (fun e => hq (by rw [e])) (fun hm => ?_) ho)) fun q f' tl' es' hq ho e he k v hx => ?_
  · obtain ⟨k, v, hx⟩ := hnode q hm
    rw [ho] at hx
    exact hne k v (Option.some.inj hx)
  · refine x e _ ?_ (fun hm => ?_) hx
    · rintro rfl; rw [hp] at hx; cases hx
    · exact s.apart _ _ _ _ _ _ _ _ ho hp (fun e' => hq (by rw [e'])) e he hm

theorem Same.refl (p : Option Nat) (h : Heap) : Same p h h := fun _ _ _ e => e

theorem same_set {h : Heap} (s : Sep h) {p : Nat} {f : Bool} {as : List Ref} (hp : h[p]? = some (.arr f as)) (o : Obj) : Same (some p) h (h.set p o) := by
  refine same_of s (fun q o' hq ho _ => .inl ?_) fun q f tl es hq ho e he k v hx => ?_
  · rw [get_set_ne fun e => hq (by rw [e])]; exact ho
  · rw [get_set_ne (by rintro rfl; rw [hp] at hx; cases hx)]; exact hx

theorem Fz.sep {h h' : Heap} (x : Fz h h') (s : Sep h) : Sep h' := by
  have hb : ∀ (q : Nat) (f : Bool) (tl : Nat) (es : List Nat), h'[q]? = some (.map f tl es) → ∃ f', h[q]? = some (.map f' tl es) := by
    intro q f tl es hq
    obtain ⟨o, ho, e | e⟩ := x.back hq
    · exact ⟨f, by rw [ho, ← e]⟩
    · cases o <;> simp only [Obj.froze, reduceCtorEq, Obj.map.injEq] at e
      exact ⟨_, by rw [ho, e.2.1, e.2.2]⟩
  refine ⟨fun p f tl es hp => ?_, fun p q f f' tl tl' es es' hp hq => ?_, fun p f es hp => ?_⟩
  · obtain ⟨f', hp⟩ := hb _ _ _ _ hp
    obtain ⟨l, hl, hn⟩ := s.own' hp
    refine ⟨l, ents_iff.2 (hl.cong fun e he k v hx => ?_), hn⟩
    rcases x.obj e _ hx with h1 | h1 <;> exact h1
  · obtain ⟨_, hp⟩ := hb _ _ _ _ hp
    obtain ⟨_, hq⟩ := hb _ _ _ _ hq
    exact s.apart _ _ _ _ _ _ _ _ hp hq
  · obtain ⟨_, hp⟩ := hb _ _ _ _ hp
    exact s.empty _ _ _ hp

theorem Fz.same {h h' : Heap} (x : Fz h h') (s : Sep h) (p : Option Nat) : Same p h h' :=
  same_of s (fun q o _ ho _ => x.obj q o ho) fun q f tl es _ hq e he k v hx => by
    rcases x.obj e _ hx with h1 | h1 <;> exact h1

/-! ### Derived maps -/

/-- A new map with this flag and these entries, and nothing changed -/
def NewMap (h h' : Heap) (r : Ref) (f : Bool) (l : Entries) : Prop :=
  ∃ c tl es, r = .obj c ∧ h.length ≤ c ∧ h'[c]? = some (.map f tl es) ∧ Ents h' es l

theorem NewNodes.own {h h' : Heap} {bs : List Nat} {l : Entries} (n : NewNodes h h' bs l) (hn : (l.map (·.1)).Nodup) : Own h' bs := ⟨l, n.ents, hn⟩

theorem hasValue_eff (n : Nat) (k : BitVec 64) (r : Ref) {es : List Nat} {l : Entries} {h : Heap} (x : Ents h es l) :
    Tri h (hasValue n k r es) (fun b h' => h' = h ∧ (b = true → ∃ v, (k, v) ∈ l ∧ geq n h [] r v = some true)) (fun _ => False) := by
  refine Tri.findNode (fun e he v hv => ?_) (fun hn => ?_) x.nodes
  · refine Tri.loadEntry_is hv (Tri.get_bind ?_)
    dsimp only
    split
    · rename_i b hb
      refine Tri.pure ⟨rfl, fun h1 => ⟨v, ?_, by rw [hb, h1]⟩⟩
      obtain ⟨kv, hm, hx⟩ := x.mem he
      rw [hv] at hx
      simp only [Option.some.injEq, Obj.entry.injEq] at hx
      rw [hx.1, hx.2]; exact hm
    · exact Tri.loop
  · exact Tri.pure ⟨rfl, fun h => by cases h⟩

/-- The result is a copy of a map, after a call on it. -/
theorem derived_eff {h h1 h2 : Heap} {c tl : Nat} {es es1 : List Nat} {l : Entries} (w : WE h h1) (hc : h.length ≤ c) (hes : ∀ e ∈ es, h.length ≤ e)
    (f : Frame c es h1 h2) : Keeps h h2 := fun q o hq =>
  f q o (by have := get_lt hq; omega) (fun hm => absurd (get_lt hq) (by have := hes q hm; omega)) (w.1.get hq)

theorem seal_eff {h h2 : Heap} (s2 : Sep h2) (k : Keeps h h2) {c tl : Nat} {es : List Nat} {l : Entries} (hc : h.length ≤ c) (hp : h2[c]? = some (.map false tl es))
    (x : Ents h2 es l) (hn : (l.map (·.1)).Nodup) (fr : Bool) :
    Sep (h2.set c (.map fr tl es)) ∧ Keeps h (h2.set c (.map fr tl es)) ∧ NewMap h (h2.set c (.map fr tl es)) (.obj c) fr l := by
  refine ⟨s2.setMap hp (fun _ _ h => by cases h) ⟨l, x, hn⟩ (fun q f' tl' es' hq hx e he he' => s2.apart _ _ _ _ _ _ _ _ hx hp hq e he' he)
    (fun h0 => s2.empty _ _ _ (by rw [hp, h0])), fun q o hq => ?_, c, tl, es, rfl, hc, get_set hp, ?_⟩
  · rw [get_set_ne (by have := get_lt hq; omega)]; exact k q o hq
  · exact x.cong fun e _ k v hx => by rw [get_set_ne (by rintro rfl; rw [hp] at hx; cases hx)]; exact hx

theorem WE.allocMap {h h1 : Heap} (w : WE h h1) {bs : List Nat} {l : Entries} (nn : NewNodes h h1 bs l) (hn : (l.map (·.1)).Nodup) (f : Bool) {tl : Nat} (ht : tl = 0 → bs = []) :
    WE h (h1 ++ [.map f tl bs]) := ⟨w.1.snoc _, w.2.allocMap ⟨l, nn.ents, hn⟩ nn.free nn.new f ht⟩

theorem mapWith_eff (n : Nat) {h : Heap} (s : Sep h) {p tl : Nat} {f : Bool} {es : List Nat} {l : Entries} (hp : h[p]? = some (.map f tl es)) (x : Ents h es l)
    (k : BitVec 64) (r : Ref) :
    Tri h (exec n (.mapWith p k r)) (fun a h' => (h' = h ∧ a = .obj p ∧ ∃ v, (k, v) ∈ l ∧ geq n h [] r v = some true) ∨
      (Sep h' ∧ Keeps h h' ∧ NewMap h h' a f (upd k r l))) (fun _ => False) := by
  have hnd : (l.map (·.1)).Nodup := by
    obtain ⟨l', h1, h2⟩ := s.own' hp
    rw [x.inj h1]; exact h2
  refine Tri.loadMap_is hp ?_
  dsimp only
  split
  · rename_i h0
    subst h0
    cases s.empty _ _ _ hp
    cases x
    refine Tri.alloc_bind (Tri.allocObj (.inr ?_))
    have w : WE h (h ++ [.entry k r]) := WE.alloc h not_map'
    have nn : NewNodes h (h ++ [.entry k r]) [h.length] (upd k r []) :=
      ⟨.cons (get_alloc _ _) .nil, fun b hb => by cases List.mem_singleton.1 hb; exact unowned_new s k r, fun b hb => by cases List.mem_singleton.1 hb; exact Nat.le_refl _⟩
    have w1 := w.allocMap nn (upd_nodup hnd) f (tl := HMap.tableSizeFor 8) tsf
    exact ⟨w1.2.sep s, Keeps.of_we w1, _, _, _, rfl, w.2.len, get_alloc _ _, nn.ents.ext (Ext.alloc _ _)⟩
  · refine Tri.bind (hasValue_eff n k r x) ?_ (fun _ z => z.elim)
    rintro same h' ⟨rfl, hs⟩
    split
    · rename_i h1; exact Tri.pure (.inl ⟨rfl, rfl, hs h1⟩)
    · refine Tri.bind (renode_we s x) ?_ (fun _ z => z.elim)
      rintro es1 h1 ⟨w, nn⟩
      refine Tri.alloc_bind ?_
      have w1 := w.allocMap nn hnd false (tl := HMap.tableSizeFor (tl + 1)) tsf
      have hc := get_alloc h1 (.map false (HMap.tableSizeFor (tl + 1)) es1)
      refine Tri.bind (mput_eff (w1.2.sep s) hc (nn.ents.ext (Ext.alloc _ _)) k r) ?_ (fun _ z => z.elim)
      · rintro _ h2 ⟨s2, ⟨tl2, es2, hc2, x2⟩, f2⟩
        have kk := derived_eff (l := l) (tl := tl) (es1 := es) w1 w.2.len nn.new f2
        refine Tri.loadMap_is hc2 ?_
        exact Tri.store_bind (Tri.pure (.inr (seal_eff s2 kk w.2.len hc2 x2 (upd_nodup hnd) f)))

theorem merge_eff (n : Nat) {h : Heap} (s : Sep h) {p q tl tq : Nat} {f fq : Bool} {es as : List Nat} {l la : Entries} (hp : h[p]? = some (.map f tl es)) (x : Ents h es l)
    (hq : h[q]? = some (.map fq tq as)) (y : Ents h as la) :
    Tri h (exec n (.merge p q)) (fun a h' => (h' = h ∧ a = .obj p ∧ (la = [] ∨ p = q)) ∨ (h' = h ∧ a = .obj q ∧ l = []) ∨
      (Sep h' ∧ Keeps h h' ∧ NewMap h h' a f (updAll l la))) (fun _ => False) := by
  have hnd : (l.map (·.1)).Nodup := by
    obtain ⟨l', h1, h2⟩ := s.own' hp
    rw [x.inj h1]; exact h2
  refine Tri.loadMap_is hq ?_
  dsimp only
  split
  · rename_i h0
    refine Tri.pure (.inl ⟨rfl, rfl, h0.imp_left fun h0 => ?_⟩)
    cases List.length_eq_zero_iff.1 h0
    cases y; rfl
  refine Tri.loadMap_is hp ?_
  dsimp only
  split
  · rename_i h0
    refine Tri.pure (.inr (.inl ⟨rfl, rfl, ?_⟩))
    cases List.length_eq_zero_iff.1 h0
    cases x; rfl
  refine Tri.bind (renode_we s x) ?_ (fun _ z => z.elim)
  rintro es1 h1 ⟨w, nn⟩
  refine Tri.alloc_bind ?_
  have w1 := w.allocMap nn hnd false (tl := HMap.tableSizeFor (tl + es.length + as.length)) tsf
  have hc := get_alloc h1 (.map false (HMap.tableSizeFor (tl + es.length + as.length)) es1)
  refine Tri.bind (mputAll_eff (w1.2.sep s) hc (nn.ents.ext (Ext.alloc _ _)) (w1.1.get hq) (y.ext w1.1)) ?_ (fun _ z => z.elim)
  · rintro _ h2 ⟨s2, ⟨tl2, es2, hc2, x2⟩, f2⟩
    have kk := derived_eff (l := l) (tl := tl) (es1 := es) w1 w.2.len nn.new f2
    refine Tri.loadMap_is hc2 ?_
    exact Tri.store_bind (Tri.pure (.inr (.inr (seal_eff s2 kk w.2.len hc2 x2 (updAll_nodup hnd la) f))))

theorem without_eff (n : Nat) {h : Heap} (s : Sep h) {p tl : Nat} {f : Bool} {es : List Nat} {l : Entries} (hp : h[p]? = some (.map f tl es)) (x : Ents h es l) (k : BitVec 64) :
    Tri h (exec n (.without p k)) (fun a h' => (h' = h ∧ a = .obj p ∧ k ∉ l.map (·.1)) ∨
      (Sep h' ∧ Keeps h h' ∧ NewMap h h' a f (del k l))) (fun _ => False) := by
  have hnd : (l.map (·.1)).Nodup := by
    obtain ⟨l', h1, h2⟩ := s.own' hp
    rw [x.inj h1]; exact h2
  refine Tri.loadMap_is hp ?_
  refine Tri.findNode (fun e he v hv => ?_) (fun hn => ?_) x.nodes
  · refine Tri.bind (renode_we s x) ?_ (fun _ z => z.elim)
    rintro es1 h1 ⟨w, nn⟩
    refine Tri.bind (dropNode_eff nn.ents hnd k) ?_ (fun _ z => z.elim)
    rintro es2 h2 ⟨rfl, y, hs⟩
    refine Tri.allocObj (.inr ?_)
    have nn2 : NewNodes h h2 es2 (del k l) := ⟨y, fun b hb => nn.free b (hs b hb), fun b hb => nn.new b (hs b hb)⟩
    have w1 := w.allocMap nn2 (del_nodup hnd) f (tl := HMap.tableSizeFor tl) tsf
    exact ⟨w1.2.sep s, Keeps.of_we w1, _, _, _, rfl, w.2.len, get_alloc _ _, y.ext (Ext.alloc _ _)⟩
  · refine Tri.pure (.inl ⟨rfl, rfl, fun hm => ?_⟩)
    obtain ⟨kv, h1, h2⟩ := List.mem_map.1 hm
    exact ne_of_key x hn kv h1 h2

theorem mapMap_eff (n : Nat) {h : Heap} (s : Sep h) {p tl : Nat} {f : Bool} {es : List Nat} {l : Entries} (hp : h[p]? = some (.map f tl es)) (x : Ents h es l)
    (g : BitVec 64 → Ref → Ref) :
    Tri h (exec n (.mapMap p g)) (fun a h' => Sep h' ∧ Keeps h h' ∧ NewMap h h' a f (l.map fun e => (e.1, g e.1 e.2))) (fun _ => False) := by
  have hnd : (l.map (·.1)).Nodup := by
    obtain ⟨l', h1, h2⟩ := s.own' hp
    rw [x.inj h1]; exact h2
  refine Tri.loadMap_is hp ?_
  refine Tri.bind (renodeWith_we g s x) ?_ (fun _ z => z.elim)
  rintro es1 h1 ⟨w, nn⟩
  refine Tri.allocObj ?_
  have w1 := w.allocMap nn (by rw [List.map_map]; exact hnd) f (tl := HMap.tableSizeFor tl) tsf
  exact ⟨w1.2.sep s, Keeps.of_we w1, _, _, _, rfl, w.2.len, get_alloc _ _, nn.ents.ext (Ext.alloc _ _)⟩

/-! ### All calls -/

/-- Maps stay apart, and other collections contain what they did, but for calls that thaw. -/
def After (op : Op) (h h' : Heap) : Prop := Sep h' ∧ (op.thaws = false → Same op.receiver h h')

theorem after_we {op : Op} {h h' : Heap} (s : Sep h) (w : WE h h') : After op h h' := ⟨w.2.sep s, fun _ => (Keeps.of_we w).same s _⟩
theorem after_keeps {op : Op} {h h' : Heap} (s : Sep h) (w : Sep h' ∧ Keeps h h') : After op h h' := ⟨w.1, fun _ => w.2.same s _⟩
theorem after_refl {op : Op} {h : Heap} (s : Sep h) : After op h h := ⟨s, fun _ => Same.refl _ _⟩
theorem after_eq {op : Op} {h h' : Heap} (s : Sep h) (e : h' = h) : After op h h' := by rw [e]; exact after_refl s

theorem onMutableArr_after {op : Op} {p : Nat} {f : List Ref → M Heap Ref} {h : Heap} (s : Sep h)
    (hf : ∀ es, h[p]? = some (.arr false es) → Tri h (f es) (fun _ h' => After op h h') (After op h)) :
    Tri h (onMutableArr p f) (fun _ h' => After op h h') (After op h) := by
  refine Tri.loadArr_bind (fun fr es e => ?_) (after_refl s)
  cases fr
  · exact hf es e
  · exact Tri.throw (after_refl s)

theorem arrStore_after {op : Op} {p : Nat} {es es' : List Ref} {r : Ref} {h : Heap} (s : Sep h) (hop : op.receiver = some p) (e : h[p]? = some (.arr false es)) :
    Tri h (store p (.arr false es') >>= fun _ => pure r) (fun _ h' => After op h h') (After op h) :=
  Tri.store_bind (Tri.pure ⟨s.setOther e not_map (fun _ _ h => by cases h), fun _ => hop ▸ same_set s e _⟩)

theorem frozenIf_we (n : Nat) (b : Bool) (l : List Ref) (h : Heap) (s : Sep h) : Tri h (frozenIf n b l) (fun _ h' => WE h h') (WE h) := by
  unfold frozenIf
  split
  · exact mapEach_frozenCopy_we n l h s
  · exact Tri.pure (WE.refl h)

theorem mapEach_thawedCopy_w (n : Nat) (l : List Ref) (h : Heap) (s : Sep h) : Tri h (mapEach (thawedCopy n) l) (fun _ h' => W h h') (W h) :=
  (Tri.mapEach (R := W) (Q' := fun _ _ _ => True) W.refl W.trans (fun _ _ _ _ _ _ => trivial) l
    fun a _ h1 w => (thawedCopy_w n a h1 (w.sep s)).conseq (fun _ _ x => ⟨x, trivial⟩) (fun _ x => x)).conseq (fun _ _ x => x.1) fun _ x => x

theorem we_newMap {h : Heap} (f : Bool) (tl : Nat) : WE h (h ++ [.map f tl []]) :=
  (WE.refl h).allocMap (l := []) ⟨.nil, fun _ h => (by cases h), fun _ h => (by cases h)⟩ .nil f fun _ => rfl

theorem exec_after (n : Nat) (op : Op) (h : Heap) (s : Sep h) : Tri h (exec n op) (fun _ h' => After op h h') (After op h) := by
  have noMap : ∀ {p : Nat} {β : Type} {g : Bool × Nat × List Nat → M Heap β} {Q' : β → Heap → Prop},
      (∀ f tl es l, h[p]? = some (.map f tl es) → Ents h es l → Tri h (loadMap p >>= g) Q' (After op h)) → Tri h (loadMap p >>= g) Q' (After op h) := by
    intro p β g Q' hx
    by_cases hp : ∃ f tl es, h[p]? = some (.map f tl es)
    · obtain ⟨f, tl, es, hp⟩ := hp
      obtain ⟨l, hl, _⟩ := s.own' hp
      exact hx f tl es l hp hl
    · exact Tri.loadMap_bind (fun f tl es e => absurd ⟨f, tl, es, e⟩ hp) (after_refl s)
  cases op with
  | newArr es => exact Tri.allocObj (after_we s (WE.alloc _ not_map))
  | values es =>
    exact Tri.bind (mapEach_frozenCopy_we n es h s) (fun _ h1 x => Tri.allocObj (after_we s (WE.trans _ _ _ x (WE.alloc _ not_map)))) (fun _ x => after_we s x)
  | add p r => rw [exec]; exact onMutableArr_after s fun es e => arrStore_after s rfl e
  | set p i r =>
    rw [exec]
    refine onMutableArr_after s fun es e => ?_
    split
    · exact arrStore_after s rfl e
    · exact Tri.throw (after_refl s)
  | insert p i r =>
    rw [exec]
    refine onMutableArr_after s fun es e => ?_
    split
    · exact arrStore_after s rfl e
    · exact Tri.throw (after_refl s)
  | removeAt p i => rw [exec]; exact onMutableArr_after s fun es e => arrStore_after s rfl e
  | addAll p q => rw [exec]; exact onMutableArr_after s fun es e => Tri.loadArr_bind (fun _ as _ => arrStore_after s rfl e) (after_refl s)
  | pick p is => exact Tri.loadArr_bind (fun fr es _ => Tri.allocObj (after_we s (WE.alloc _ not_map))) (after_refl s)
  | arrMap p f => exact Tri.loadArr_bind (fun fr es _ => Tri.allocObj (after_we s (WE.alloc _ not_map))) (after_refl s)
  | «with» p r => exact Tri.loadArr_bind (fun fr es _ => Tri.allocObj (after_we s (WE.alloc _ not_map))) (after_refl s)
  | withValues p rs =>
    refine Tri.loadArr_bind (fun fr es _ => ?_) (after_refl s)
    dsimp only
    split
    · exact Tri.pure (after_refl s)
    · exact Tri.bind (frozenIf_we n fr rs h s) (fun _ h1 x => Tri.allocObj (after_we s (WE.trans _ _ _ x (WE.alloc _ not_map)))) (fun _ x => after_we s x)
  | withAll p q =>
    refine Tri.loadArr_bind (fun _ as _ => ?_) (after_refl s)
    dsimp only
    split
    · exact Tri.pure (after_refl s)
    · refine Tri.loadArr_bind (fun fr es _ => ?_) (after_refl s)
      refine Tri.bind (mapEach_thawedCopy_w n es h s) (fun es' h1 x => ?_) (fun _ x => ⟨x.sep s, fun h => by cases h⟩)
      refine Tri.loadArr_bind (fun qf as _ => ?_) ⟨x.sep s, fun h => by cases h⟩
      exact Tri.bind (frozenIf_we n _ as h1 (x.sep s))
        (fun _ h2 y => Tri.allocObj ⟨(y.2.sep (x.sep s)).alloc not_map, fun h => by cases h⟩) (fun _ y => ⟨y.2.sep (x.sep s), fun h => by cases h⟩)
  | newMap tl => exact Tri.allocObj (after_we s (we_newMap _ _))
  | emptyMap => exact Tri.allocObj (after_we s (we_newMap _ _))
  | put p k r =>
    by_cases hp : ∃ tl es, h[p]? = some (.map false tl es)
    · obtain ⟨tl, es, hp⟩ := hp
      obtain ⟨l, hl, _⟩ := s.own' hp
      exact Tri.bind (mput_eff s hp hl k r) (fun _ h1 x => Tri.pure ⟨x.1, fun _ => x.2.2.same s hp⟩) (fun _ z => z.elim)
    · refine Tri.bind (Q1 := fun _ h' => False) (E1 := fun h' => h' = h) ?_ (fun _ _ x => x.elim) (fun _ x => after_eq s x)
      refine Tri.loadMap_bind (fun fr tl es e => ?_) rfl
      cases fr
      · exact absurd ⟨_, _, e⟩ hp
      · exact Tri.throw rfl
  | putAll p q =>
    by_cases hp : (∃ tl es, h[p]? = some (.map false tl es)) ∧ ∃ f tl es, h[q]? = some (.map f tl es)
    · obtain ⟨⟨tl, es, hp⟩, f, tq, as, hq⟩ := hp
      obtain ⟨l, hl, _⟩ := s.own' hp
      obtain ⟨la, hla, _⟩ := s.own' hq
      exact Tri.bind (mputAll_eff s hp hl hq hla) (fun _ h1 x => Tri.pure ⟨x.1, fun _ => x.2.2.same s hp⟩) (fun _ z => z.elim)
    · refine Tri.bind (Q1 := fun _ h' => h' = h) (E1 := fun h' => h' = h) ?_ (fun _ _ x => Tri.pure (after_eq s x)) (fun _ x => after_eq s x)
      refine Tri.loadMap_bind (fun _ _ as e' => ?_) rfl
      dsimp only
      split
      · exact Tri.pure rfl
      · refine Tri.loadMap_bind (fun fr tl es e => ?_) rfl
        cases fr
        · exact absurd ⟨⟨_, _, e⟩, _, _, _, e'⟩ hp
        · exact Tri.throw rfl
  | remove p k =>
    refine noMap fun f tl es l hp hl => Tri.loadMap_bind (fun f' tl' es' e => ?_) (after_refl s)
    rw [hp] at e; cases e
    cases f
    · have hnd : (l.map (·.1)).Nodup := by
        obtain ⟨l', h1, h2⟩ := s.own' hp
        rw [hl.inj h1]; exact h2
      refine Tri.bind (dropNode_eff hl hnd k) ?_ (fun _ z => z.elim)
      rintro es2 h' ⟨rfl, y, hs⟩
      refine Tri.store_bind (Tri.pure ⟨s.setMap hp (fun _ _ h => by cases h) ⟨_, y, del_nodup hnd⟩
        (fun q f' tl' es' hq hx e he he' => s.apart _ _ _ _ _ _ _ _ hx hp hq e he' (hs e he)) (fun h0 => ?_), fun _ => (Frame.set es _ _).same s hp⟩)
      cases s.empty p false es (by rw [hp, h0])
      cases es2 with
      | nil => rfl
      | cons a _ => cases hs a (.head _)
    · exact Tri.throw (after_refl s)
  | mapWith p k r =>
    refine noMap fun f tl es l hp hl => ?_
    refine (mapWith_eff n s hp hl k r).conseq (fun a h' x => ?_) fun _ z => z.elim
    rcases x with ⟨rfl, _⟩ | x
    · exact after_refl s
    · exact after_keeps s ⟨x.1, x.2.1⟩
  | without p k =>
    refine noMap fun f tl es l hp hl => ?_
    refine (without_eff n s hp hl k).conseq (fun a h' x => ?_) fun _ z => z.elim
    rcases x with ⟨rfl, _⟩ | x
    · exact after_refl s
    · exact after_keeps s ⟨x.1, x.2.1⟩
  | merge p q =>
    refine noMap fun fq tq as la hq hla => ?_
    by_cases hp : ∃ f tl es, h[p]? = some (.map f tl es)
    · obtain ⟨f, tl, es, hp⟩ := hp
      obtain ⟨l, hl, _⟩ := s.own' hp
      refine (merge_eff n s hp hl hq hla).conseq (fun a h' x => ?_) fun _ z => z.elim
      rcases x with ⟨rfl, _⟩ | ⟨rfl, _⟩ | x
      · exact after_refl s
      · exact after_refl s
      · exact after_keeps s ⟨x.1, x.2.1⟩
    · refine Tri.loadMap_bind (fun _ _ as0 e => ?_) (after_refl s)
      dsimp only
      split
      · exact Tri.pure (after_refl s)
      · exact Tri.loadMap_bind (fun f' tl' es' e => absurd ⟨_, _, _, e⟩ hp) (after_refl s)
  | mapMap p g =>
    refine noMap fun f tl es l hp hl => ?_
    exact (mapMap_eff n s hp hl g).conseq (fun a h' x => after_keeps s ⟨x.1, x.2.1⟩) fun _ z => z.elim
  | mapValues p =>
    refine Tri.loadMap_bind (fun fr tl es e => ?_) (after_refl s)
    refine Tri.bind (Tri.mapEach (Q' := fun _ _ _ => True) WE.refl WE.trans (fun _ _ _ _ _ _ => trivial) es
      fun a _ h1 _ => Tri.loadEntry_bind (fun k v _ => Tri.pure ⟨WE.refl _, trivial⟩) (WE.refl _))
      (fun _ h1 x => Tri.allocObj (after_we s (WE.trans _ _ _ x.1 (WE.alloc _ not_map)))) (fun _ x => after_we s x)
  | newEntry k r => exact Tri.allocObj (after_we s (WE.alloc _ not_map'))
  | newBin f bs => exact Tri.allocObj (after_we s (WE.alloc _ fun _ _ _ h => by cases h))
  | sensitive r => exact Tri.allocObj (after_we s (WE.alloc _ fun _ _ _ h => by cases h))
  | native id => exact Tri.allocObj (after_we s (WE.alloc _ fun _ _ _ h => by cases h))
  | freeze r =>
    exact Tri.bind (Q1 := fun _ h' => Fz h h') (E1 := Fz h)
      ⟨fun _ h' e => freeze_fz n (.inl e), fun h' e => freeze_fz n (.inr e)⟩ (fun _ h1 x => Tri.pure ⟨x.sep s, fun _ => x.same s _⟩)
      (fun _ x => ⟨x.sep s, fun _ => x.same s _⟩)
  | frozenCopy r => exact (frozenCopy_we n r h s).conseq (fun _ _ x => after_we s x) (fun _ x => after_we s x)
  | thawedCopy r => exact (thawedCopy_w n r h s).conseq (fun _ _ x => ⟨x.sep s, fun h => by cases h⟩) (fun _ x => ⟨x.sep s, fun h => by cases h⟩)

theorem run_sep (n : Nat) (ops : List Op) {h h' : Heap} (s : Sep h) (e : run n h ops = some h') : Sep h' := by
  induction ops generalizing h with
  | nil => cases e; exact s
  | cons op ops ih =>
    rw [run] at e
    split at e
    · rename_i hx; exact ih ((exec_after n op h s).ok _ _ hx).1 e
    · rename_i hx; exact ih ((exec_after n op h s).panic _ hx).1 e
    · cases e

/-! ### Calls that always end -/

/-- The computation ends. -/
def Ending {α : Type} (m : M Heap α) : Prop := ∀ h, m h ≠ .diverge

theorem Ending.pure {α : Type} (a : α) : Ending (pure a : M Heap α) := fun _ e => by cases e
theorem Ending.throw {α : Type} : Ending (M.throw : M Heap α) := fun _ e => by cases e
theorem Ending.bind {α β : Type} {m : M Heap α} {f : α → M Heap β} (x : Ending m) (y : ∀ a, Ending (f a)) : Ending (m >>= f) := by
  intro h e
  cases hm : m h with
  | ok a h' => rw [M.bind_ok hm] at e; exact y a h' e
  | panic h' => rw [M.bind_panic hm] at e; cases e
  | diverge => exact x h hm
theorem Ending.load (p : Nat) : Ending (load p) := by
  intro h e; unfold Graph.load at e; split at e <;> cases e
theorem Ending.store (p : Nat) (o : Obj) : Ending (store p o) := fun _ e => by cases e
theorem Ending.alloc (o : Obj) : Ending (alloc o) := fun _ e => by cases e
theorem Ending.allocObj (o : Obj) : Ending (allocObj o) := (Ending.alloc o).bind fun _ => Ending.pure _
theorem Ending.loadMap (p : Nat) : Ending (loadMap p) := (Ending.load p).bind fun o => by
  cases o <;> first | exact Ending.pure _ | exact Ending.throw
theorem Ending.loadEntry (p : Nat) : Ending (loadEntry p) := (Ending.load p).bind fun o => by
  cases o <;> first | exact Ending.pure _ | exact Ending.throw
theorem Ending.mapEach {α β : Type} {f : α → M Heap β} (hf : ∀ a, Ending (f a)) : (l : List α) → Ending (mapEach f l)
  | [] => Ending.pure _
  | a :: l => (hf a).bind fun _ => (Ending.mapEach hf l).bind fun _ => Ending.pure _
theorem Ending.renode (es : List Nat) : Ending (renode es) := Ending.mapEach (fun e => (Ending.loadEntry e).bind fun _ => Ending.alloc _) es
theorem Ending.findNode (k : BitVec 64) : (es : List Nat) → Ending (findNode k es)
  | [] => Ending.pure _
  | e :: es => (Ending.loadEntry e).bind fun kv => by
    split
    · exact Ending.pure _
    · exact Ending.findNode k es
theorem Ending.putNode (es : List Nat) (k : BitVec 64) (r : Ref) : Ending (putNode es k r) := (Ending.findNode k es).bind fun o => by
  cases o with
  | some e => exact (Ending.store _ _).bind fun _ => Ending.pure _
  | none => exact (Ending.alloc _).bind fun _ => Ending.pure _
theorem Ending.putNodes : (as es : List Nat) → Ending (putNodes es as)
  | [], es => Ending.pure _
  | a :: as, es => (Ending.loadEntry a).bind fun kv => (Ending.putNode es _ _).bind fun es' => Ending.putNodes as es'
theorem Ending.dropNode (k : BitVec 64) (es : List Nat) : Ending (dropNode k es) := (Ending.findNode k es).bind fun o => by
  cases o <;> exact Ending.pure _
theorem Ending.mput (p : Nat) (k : BitVec 64) (r : Ref) : Ending (mput p k r) := (Ending.loadMap p).bind fun x => by
  obtain ⟨f, tl, es⟩ := x
  dsimp only
  split
  · exact Ending.throw
  · refine (Ending.findNode k es).bind fun o => ?_
    cases o with
    | some e => exact (Ending.store _ _).bind fun _ => Ending.store _ _
    | none =>
      refine Ending.bind ?_ fun _ => (Ending.alloc _).bind fun _ => Ending.store _ _
      generalize (if tl = 0 then HMap.tableSizeFor 1 else tl) = tl
      unfold grow
      split
      · exact (Ending.renode es).bind fun _ => Ending.pure _
      · exact Ending.pure _
theorem Ending.mputAll (p q : Nat) : Ending (mputAll p q) := (Ending.loadMap q).bind fun x => by
  dsimp only
  split
  · exact Ending.pure _
  · refine (Ending.loadMap p).bind fun x => ?_
    split
    · exact Ending.throw
    · exact (Ending.renode _).bind fun _ => (Ending.store _ _).bind fun _ => (Ending.loadMap q).bind fun _ => (Ending.putNodes _ _).bind fun _ => Ending.store _ _
theorem Ending.put (n p : Nat) (k : BitVec 64) (r : Ref) : Ending (exec n (.put p k r)) := (Ending.mput p k r).bind fun _ => Ending.pure _
theorem Ending.putAll (n p q : Nat) : Ending (exec n (.putAll p q)) := (Ending.mputAll p q).bind fun _ => Ending.pure _
theorem Ending.remove (n p : Nat) (k : BitVec 64) : Ending (exec n (.remove p k)) := (Ending.loadMap p).bind fun x => by
  obtain ⟨f, tl, es⟩ := x
  dsimp only
  split
  · exact Ending.throw
  · exact (Ending.dropNode k es).bind fun _ => (Ending.store _ _).bind fun _ => Ending.pure _
theorem Ending.without (n p : Nat) (k : BitVec 64) : Ending (exec n (.without p k)) := (Ending.loadMap p).bind fun x => by
  obtain ⟨f, tl, es⟩ := x
  refine (Ending.findNode k es).bind fun o => ?_
  cases o with
  | none => exact Ending.pure _
  | some e => exact (Ending.renode es).bind fun _ => (Ending.dropNode _ _).bind fun _ => Ending.allocObj _
theorem Ending.merge (n p q : Nat) : Ending (exec n (.merge p q)) := (Ending.loadMap q).bind fun x => by
  dsimp only
  split
  · exact Ending.pure _
  · refine (Ending.loadMap p).bind fun x => ?_
    split
    · exact Ending.pure _
    · exact (Ending.renode _).bind fun _ => (Ending.alloc _).bind fun _ => (Ending.mputAll _ _).bind fun _ => (Ending.loadMap _).bind fun _ => (Ending.store _ _).bind fun _ => Ending.pure _
theorem Ending.mapMap (n p : Nat) (g : BitVec 64 → Ref → Ref) : Ending (exec n (.mapMap p g)) := (Ending.loadMap p).bind fun x =>
  (Ending.mapEach (fun e => (Ending.loadEntry e).bind fun _ => Ending.alloc _) _).bind fun _ => Ending.allocObj _

/-- What ends and does not panic returns. -/
theorem Tri.returns {α : Type} {h : Heap} {m : M Heap α} {Q : α → Heap → Prop} (t : Tri h m Q (fun _ => False)) (x : Ending m) : ∃ a h', m h = .ok a h' ∧ Q a h' := by
  cases hm : m h with
  | ok a h' => exact ⟨a, h', rfl, t.ok _ _ hm⟩
  | panic h' => exact (t.panic _ hm).elim
  | diverge => exact absurd hm (x h)

end Verif.Graph
