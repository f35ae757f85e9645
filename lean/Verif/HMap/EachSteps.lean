import Verif.HMap.EachSpec
/-! Lemmas for C108: the loop of the code is at the cursor of the specification. -/
set_option autoImplicit false
set_option linter.unusedSectionVars false
set_option linter.unusedSimpArgs false
set_option linter.unusedVariables false
namespace Verif.HMap
open Spec

variable {K V S : Type} [KeyOps K] [ValOps V]

/-- A node that isn't one of any map. -/
def Loose (css : List (List (Cell K V))) (p : Ptr) : Prop := ∀ (i : Nat) (ds : List (Cell K V)), css[i]? = some ds → p ∉ ds.map (·.p)

/-- A chain through such nodes. -/
def Trail (nodes : List (Node K V)) (css : List (List (Cell K V))) : Option Ptr → List (Cell K V) → Option Ptr → Prop
  | cur, [], cur' => cur = cur'
  | cur, c :: cs, cur' => cur = some c.p ∧ Loose css c.p ∧ ∃ n, nodes[c.p]? = some n ∧ n.key = c.k ∧ n.value = c.v ∧ Trail nodes css n.next cs cur'

def headP (B : List (Cell K V)) : Option Ptr := B.head?.map (·.p)

theorem Trail.append {nodes : List (Node K V)} {css} {A B : List (Cell K V)} {cur x y} :
    Trail nodes css cur A x → Trail nodes css x B y → Trail nodes css cur (A ++ B) y := by
  intro h1 h2
  induction A generalizing cur with
  | nil => rw [show cur = x from h1]; exact h2
  | cons c A ih =>
    obtain ⟨e, l, n, h3, h4, h5, h6⟩ := h1
    exact ⟨e, l, n, h3, h4, h5, ih h6⟩

/-- The loop is about to read `cur`. -/
def Here (w : World K V) (css : List (List (Cell K V))) (cs : List (Cell K V)) (cur : Option Ptr) (c : Cursor K V) : Prop :=
  ∃ A G B, cs = A ++ B ∧ Trail w.nodes css cur G (headP B) ∧ c.gone = kv G ∧ c.rest = kv B

/-- The actor is called for the node `p`. -/
inductive At (w : World K V) (css : List (List (Cell K V))) (cs : List (Cell K V)) (p : Ptr) : Cursor K V → Prop
  | on {A B : List (Cell K V)} {x : Cell K V} : cs = A ++ x :: B → x.p = p → At w css cs p ⟨some x.k, [], kv B⟩
  | off {A B G : List (Cell K V)} {n : Node K V} : cs = A ++ B → Loose css p → w.nodes[p]? = some n → Trail w.nodes css n.next G (headP B) →
      At w css cs p ⟨none, kv G, kv B⟩

theorem Seg.head {nodes : List (Node K V)} {B : List (Cell K V)} {pv cur lst} (h : Seg nodes pv cur B lst none) : cur = headP B := by
  cases B with
  | nil => exact h.2
  | cons c B => exact h.1

/-- The node of an entry, and what follows it. -/
theorem seg_mid {nodes : List (Node K V)} {A B : List (Cell K V)} {x : Cell K V} {first last} (h : Seg nodes none first (A ++ x :: B) last none) :
    ∃ n, nodes[x.p]? = some n ∧ n.key = x.k ∧ n.value = x.v ∧ Seg nodes (some x.p) n.next B last none := by
  obtain ⟨_, _, _, _, n, h2, h3, h4, _, h5⟩ := Seg.append.1 h
  exact ⟨n, h2, h3, h4, h5⟩

theorem seg_tail {nodes : List (Node K V)} {A B : List (Cell K V)} {first last} (h : Seg nodes none first (A ++ B) last none) :
    ∃ pv cur, Seg nodes pv cur B last none := by
  obtain ⟨pv, cur, _, h⟩ := Seg.append.1 h
  exact ⟨pv, cur, h⟩

theorem At.here {w : World K V} {css cs p c m g} (h : At w css cs p c) (hr : RepM w m g cs) :
    ∃ n, w.nodes[p]? = some n ∧ Here w css cs n.next c := by
  cases h with
  | @on A B x e1 e2 =>
    subst e1 e2
    obtain ⟨n, h1, _, _, h2⟩ := seg_mid hr.core.seg
    exact ⟨n, h1, A ++ [x], [], B, by simp, h2.head, rfl, rfl⟩
  | @off A B G n e1 _ h1 h2 => exact ⟨n, h1, A, G, B, e1, h2, rfl, rfl⟩

theorem Here.none {w : World K V} {css cs cur} {c : Cursor K V} (h : Here w css cs cur c) (hn : c.next = none) : cur = none := by
  obtain ⟨A, G, B, e1, h1, h2, h3⟩ := h
  obtain ⟨cu, go, re⟩ := c
  simp only at h2 h3
  subst h2 h3
  cases G with
  | cons => simp [Cursor.next] at hn
  | nil =>
    cases B with
    | cons => simp [Cursor.next] at hn
    | nil => exact h1

theorem Here.some {w : World K V} {css cs cur m g} {c c1 : Cursor K V} {e : K × V} (h : Here w css cs cur c) (hr : RepM w m g cs)
    (hn : c.next = some (e, c1)) : ∃ q n, cur = some q ∧ w.nodes[q]? = some n ∧ n.key = e.1 ∧ n.value = e.2 ∧ At w css cs q c1 := by
  obtain ⟨A, G, B, e1, h1, h2, h3⟩ := h
  obtain ⟨cu, go, re⟩ := c
  simp only at h2 h3
  subst h2 h3
  cases G with
  | cons y G =>
    obtain ⟨e2, l, n, h4, h5, h6, h7⟩ := h1
    simp only [kv_cons, Cursor.next, Option.some.injEq, Prod.mk.injEq] at hn
    obtain ⟨rfl, rfl⟩ := hn
    exact ⟨y.p, n, e2, h4, h5, h6, .off e1 l h4 h7⟩
  | nil =>
    cases B with
    | nil => simp [Cursor.next] at hn
    | cons y B =>
      simp only [kv_cons, kv_nil, Cursor.next, Option.some.injEq, Prod.mk.injEq] at hn
      obtain ⟨rfl, rfl⟩ := hn
      subst e1
      obtain ⟨n, h4, h5, h6, _⟩ := seg_mid hr.core.seg
      exact ⟨y.p, n, h1, h4, h5, h6, .on rfl rfl⟩

theorem Here.isSome {w : World K V} {css cs cur m g} {c : Cursor K V} (h : Here w css cs cur c) (hr : RepM w m g cs) : cur.isSome = c.next.isSome := by
  cases hn : c.next with
  | none => rw [h.none hn]; rfl
  | some x =>
    obtain ⟨q, n, e, _⟩ := h.some hr (c1 := x.2) (e := x.1) hn
    rw [e]; rfl

/-! ### Calls that leave `m` alone -/

theorem Loose.keep {w w' : World K V} {css css' t p} (h : Loose css p) (hk : Keeps w css w' css' t) (hp : p < w.nodes.length) :
    Loose css' p ∧ w'.nodes[p]? = w.nodes[p]? := by
  refine ⟨fun i ds hd hm => ?_, hk.frame p hp fun i cs _ hc => h i cs hc⟩
  obtain ⟨x, hx, e⟩ := List.mem_map.1 hm
  rcases hk.own i ds hd x hx with ⟨cs, h1, h2⟩ | h1
  · exact h i cs h1 (by rw [← e]; exact h2)
  · omega

theorem lt_of_some {nodes : List (Node K V)} {p : Nat} {n : Node K V} (h : nodes[p]? = some n) : p < nodes.length :=
  (List.getElem?_eq_some_iff.1 h).1

theorem Trail.keep {w w' : World K V} {css css' t cur y} {G : List (Cell K V)} (h : Trail w.nodes css cur G y) (hk : Keeps w css w' css' t) :
    Trail w'.nodes css' cur G y := by
  induction G generalizing cur with
  | nil => exact h
  | cons c G ih =>
    obtain ⟨e, l, n, h3, h4, h5, h6⟩ := h
    obtain ⟨l', e'⟩ := l.keep hk (lt_of_some h3)
    exact ⟨e, l', n, by rw [e', h3], h4, h5, ih h6⟩

theorem At.keep {w w' : World K V} {css css' t cs p c} (h : At w css cs p c) (hk : Keeps w css w' css' t) : At w' css' cs p c := by
  cases h with
  | @on A B x e1 e2 => exact .on e1 e2
  | @off A B G n e1 l h1 h2 =>
    obtain ⟨l', e'⟩ := l.keep hk (lt_of_some h1)
    exact .off e1 l' (by rw [e', h1]) (h2.keep hk)

/-! ### Values replaced, entries added -/

def setK (k : K) (v : V) (cs : List (Cell K V)) : List (Cell K V) := cs.map fun c => if KeyOps.eq k c.k then { c with v := v } else c
def eraseK (k : K) (cs : List (Cell K V)) : List (Cell K V) := cs.filter fun c => !KeyOps.eq k c.k

theorem kv_setK {k : K} {v : V} {cs : List (Cell K V)} : kv (setK k v cs) = (kv cs).map fun e => if KeyOps.eq k e.1 then (e.1, v) else e := by
  simp only [kv, setK, List.map_map]
  apply List.map_congr_left
  intro c _
  simp only [Function.comp]
  split <;> rfl

theorem kv_eraseK {k : K} {cs : List (Cell K V)} : kv (eraseK k cs) = erase (kv cs) k := by
  simp only [kv, eraseK, erase, List.filter_map]
  rfl

theorem setK_miss {k : K} {v : V} {cs : List (Cell K V)} (h : ∀ c ∈ cs, KeyOps.eq k c.k = false) : setK k v cs = cs := by
  simp only [setK]
  conv => rhs; rw [← List.map_id cs]
  apply List.map_congr_left
  intro c hc
  rw [h c hc]
  rfl

theorem eraseK_miss {k : K} {cs : List (Cell K V)} (h : ∀ c ∈ cs, KeyOps.eq k c.k = false) : eraseK k cs = cs := by
  rw [eraseK, List.filter_eq_self]
  intro c hc
  rw [h c hc]; rfl

theorem others [LawfulKey K] {k : K} {A B : List (Cell K V)} {c : Cell K V} (hd : Distinct (A ++ c :: B)) (hk : KeyOps.eq k c.k = true) :
    (∀ x ∈ A, KeyOps.eq k x.k = false) ∧ ∀ x ∈ B, KeyOps.eq k x.k = false := by
  obtain ⟨_, h2, h3⟩ := List.pairwise_append.1 hd
  refine ⟨fun x hx => ?_, fun x hx => ?_⟩
  · rw [LawfulKey.congr hk, LawfulKey.comm]
    exact h3 x hx c (by simp)
  · rw [LawfulKey.congr hk]
    exact (List.pairwise_cons.1 h2).1 x hx

theorem setK_hit [LawfulKey K] {k : K} {v : V} {A B : List (Cell K V)} {c : Cell K V} (hd : Distinct (A ++ c :: B)) (hk : KeyOps.eq k c.k = true) :
    setK k v (A ++ c :: B) = A ++ { c with v := v } :: B := by
  obtain ⟨h1, h2⟩ := others hd hk
  have e1 := setK_miss (v := v) h1
  have e2 := setK_miss (v := v) h2
  simp only [setK, List.map_append, List.map_cons, hk, if_true] at e1 e2 ⊢
  rw [e1, e2]

theorem eraseK_hit [LawfulKey K] {k : K} {A B : List (Cell K V)} {c : Cell K V} (hd : Distinct (A ++ c :: B)) (hk : KeyOps.eq k c.k = true) :
    eraseK k (A ++ c :: B) = A ++ B := by
  obtain ⟨h1, h2⟩ := others hd hk
  have e1 := eraseK_miss h1
  have e2 := eraseK_miss h2
  simp only [eraseK, List.filter_append, List.filter_cons, hk, Bool.not_true, Bool.false_eq_true, if_false] at e1 e2 ⊢
  rw [e1, e2]

theorem headP_setK {k : K} {v : V} {B : List (Cell K V)} : headP (setK k v B) = headP B := by
  cases B with
  | nil => rfl
  | cons c B => simp only [headP, setK, List.map_cons, List.head?_cons, Option.map_some]; split <;> rfl

/-- The value of a key is replaced. -/
theorem At.set {w w' : World K V} {css m cs p c} {k : K} {v : V} (h : At w css cs p c) (hk : Keeps w css w' (css.set m (setK k v cs)) (some m)) :
    At w' (css.set m (setK k v cs)) (setK k v cs) p (c.set k v) := by
  cases h with
  | @on A B x e1 e2 =>
    subst e1
    have e : setK k v (A ++ x :: B) = setK k v A ++ (if KeyOps.eq k x.k then { x with v := v } else x) :: setK k v B := by simp [setK]
    have := At.on (w := w') (css := css.set m (setK k v (A ++ x :: B))) (p := p) e (by split <;> exact e2)
    have ek : (if KeyOps.eq k x.k = true then { p := x.p, k := x.k, v := v } else x : Cell K V).k = x.k := by split <;> rfl
    rw [kv_setK, ek] at this
    exact this
  | @off A B G n e1 l h1 h2 =>
    subst e1
    obtain ⟨l', e'⟩ := l.keep hk (lt_of_some h1)
    have e : setK k v (A ++ B) = setK k v A ++ setK k v B := by simp [setK]
    have := At.off (w := w') e l' (by rw [e', h1]) (G := G) (by rw [headP_setK]; exact h2.keep hk)
    rw [kv_setK] at this
    exact this

/-- An entry is added. -/
theorem At.add {w w' : World K V} {css m cs p c} {y : Cell K V} (h : At w css cs p c) (hk : Keeps w css w' (css.set m (cs ++ [y])) (some m)) :
    At w' (css.set m (cs ++ [y])) (cs ++ [y]) p (c.add (y.k, y.v)) := by
  cases h with
  | @on A B x e1 e2 =>
    subst e1
    have := At.on (w := w') (css := css.set m (A ++ x :: B ++ [y])) (p := p) (show A ++ x :: B ++ [y] = A ++ x :: (B ++ [y]) by simp) e2
    rw [kv_append] at this
    simpa [Cursor.add] using this
  | @off A B G n e1 l h1 h2 =>
    subst e1
    obtain ⟨l', e'⟩ := l.keep hk (lt_of_some h1)
    cases B with
    | nil => exact .off (A := A ++ [] ++ [y]) (B := []) (by simp) l' (by rw [e', h1]) (h2.keep hk)
    | cons b B =>
      have := At.off (w := w') (css := css.set m (A ++ b :: B ++ [y])) (B := b :: (B ++ [y])) (show A ++ b :: B ++ [y] = A ++ b :: (B ++ [y]) by simp) l' (by rw [e', h1]) (G := G) (h2.keep hk)
      simpa [Cursor.add, kv_append] using this

/-! ### Growth -/

theorem set_get {css : List (List (Cell K V))} {m : Nat} {cs cs' : List (Cell K V)} (h : css[m]? = some cs) : (css.set m cs')[m]? = some cs' :=
  List.getElem?_set_self (List.getElem?_eq_some_iff.1 h).1

/-- The old nodes of a map that has got new ones are loose. -/
theorem loose_of {w : World K V} {css s m} {cs cs' : List (Cell K V)} {x : Cell K V} (hw : WR w css s) (hm : css[m]? = some cs) (hx : x ∈ cs)
    (hn : x.p ∉ cs'.map (·.p)) : Loose (css.set m cs') x.p := by
  intro i ds hd
  by_cases e : m = i
  · subst e
    rw [set_get hm] at hd
    cases hd
    exact hn
  · rw [List.getElem?_set_ne e] at hd
    exact hw.disj m i cs ds e hm hd x hx

theorem Seg.trail {w w' : World K V} {css s m} {cs cs' B : List (Cell K V)} {pv cur lst} (hw : WR w css s) (hm : css[m]? = some cs) (hf : Fresh w w' cs')
    (hs : Seg w.nodes pv cur B lst none) (hB : ∀ x ∈ B, x ∈ cs) : Trail w'.nodes (css.set m cs') cur B none := by
  induction B generalizing pv cur with
  | nil => exact hs.2
  | cons x B ih =>
    obtain ⟨e, n, h1, h2, h3, h4, h5⟩ := hs
    have hlt := lt_of_some h1
    refine ⟨e, loose_of hw hm (hB x (by simp)) ?_, n, by rw [hf.1 _ hlt, h1], h2, h3, ih h5 fun y hy => hB y (by simp [hy])⟩
    intro hc
    obtain ⟨d, hd, e⟩ := List.mem_map.1 hc
    have := hf.2 d hd
    omega

theorem At.grow {w w' : World K V} {css s m g cs cs' p c} (h : At w css cs p c) (hw : WR w css s) (hm : css[m]? = some cs) (hr : RepM w m g cs)
    (hf : Fresh w w' cs') (hk : Keeps w css w' (css.set m cs') (some m)) : At w' (css.set m cs') cs' p c.grow := by
  cases h with
  | @on A B x e1 e2 =>
    subst e1 e2
    obtain ⟨n, h1, _, _, h2⟩ := seg_mid hr.core.seg
    have hlt := lt_of_some h1
    have := At.off (w := w') (css := css.set m cs') (p := x.p) (cs := cs') (A := cs') (B := []) (G := B) (n := n) (by simp) (loose_of hw hm (by simp) (fun hc => by
      obtain ⟨d, hd, e⟩ := List.mem_map.1 hc
      have := hf.2 d hd
      omega)) (by rw [hf.1 _ hlt, h1]) (Seg.trail hw hm hf h2 fun y hy => by simp [hy])
    simpa [Cursor.grow] using this
  | @off A B G n e1 l h1 h2 =>
    subst e1
    obtain ⟨l', e'⟩ := l.keep hk (lt_of_some h1)
    obtain ⟨pv, cur, h3⟩ := seg_tail hr.core.seg
    have h4 : Trail w'.nodes (css.set m cs') (headP B) B none := by
      rw [← h3.head]
      exact Seg.trail hw hm hf h3 fun y hy => by simp [hy]
    have := At.off (w := w') (css := css.set m cs') (p := p) (cs := cs') (A := cs') (B := []) (G := G ++ B) (n := n) (by simp) l' (by rw [e', h1]) ((h2.keep hk).append h4)
    simpa [Cursor.grow, kv_append] using this

/-! ### Removal -/

theorem Cut.erase [LawfulKey K] {w w' : World K V} {k : K} {cs cs' : List (Cell K V)} (h : Cut w w' k cs cs') (hd : Distinct cs) : cs' = eraseK k cs := by
  cases h with
  | miss h1 => rw [eraseK_miss h1]
  | hit e h1 => subst e; rw [eraseK_hit hd h1]

/-- The node of the entry removed is as it was. -/
theorem Cut.node [LawfulKey K] {w w' : World K V} {k : K} {A B cs' : List (Cell K V)} {x : Cell K V} (h : Cut w w' k (A ++ x :: B) cs')
    (hd : Distinct (A ++ x :: B)) (hx : KeyOps.eq k x.k = true) : w'.nodes[x.p]? = w.nodes[x.p]? := by
  cases h with
  | miss h1 => rw [h1 x (by simp)] at hx; cases hx
  | @hit A' B' c e h1 h2 =>
    obtain ⟨o1, o2⟩ := others hd hx
    have hc : c ∈ A ++ x :: B := by rw [e]; simp
    rcases List.mem_append.1 hc with hc | hc
    · rw [o1 c hc] at h1; cases h1
    · rcases List.mem_cons.1 hc with rfl | hc
      · exact h2
      · rw [o2 c hc] at h1; cases h1

theorem nodup_mid {A B : List (Cell K V)} {x : Cell K V} (h : ((A ++ x :: B).map (·.p)).Nodup) : x.p ∉ (A ++ B).map (·.p) := by
  rw [List.map_append, List.map_cons, List.nodup_append, List.nodup_cons] at h
  rw [List.map_append, List.mem_append]
  rintro (h1 | h1)
  · exact h.2.2 _ h1 _ (by simp) rfl
  · exact h.2.1.1 h1

theorem At.remove [LawfulKey K] {w w' : World K V} {css s m g cs cs' p c} {k : K} (h : At w css cs p c) (hw : WR w css s) (hm : css[m]? = some cs)
    (hr : RepM w m g cs) (hd : Distinct cs) (hc : Cut w w' k cs cs') (hk : Keeps w css w' (css.set m cs') (some m)) :
    At w' (css.set m cs') cs' p (c.remove k) := by
  have he := hc.erase hd
  cases h with
  | @on A B x e1 e2 =>
    subst e1 e2
    obtain ⟨n, h1, _, _, h2⟩ := seg_mid hr.core.seg
    by_cases hx : KeyOps.eq k x.k = true
    · rw [eraseK_hit hd hx] at he
      subst he
      have := At.off (w := w') (css := css.set m (A ++ B)) (p := x.p) (A := A) (B := B) (G := []) (n := n) rfl
        (loose_of hw hm (by simp) (nodup_mid hr.core.nodup)) (by rw [hc.node hd hx, h1]) h2.head
      simpa [Cursor.remove, hx] using this
    · have hx' : KeyOps.eq k x.k = false := by simpa using hx
      have e : eraseK k (A ++ x :: B) = eraseK k A ++ x :: eraseK k B := by simp [eraseK, hx']
      have := At.on (w := w') (css := css.set m cs') (p := x.p) (he.trans e) rfl
      simpa [Cursor.remove, hx', kv_eraseK] using this
  | @off A B G n e1 l h1 h2 =>
    subst e1
    obtain ⟨l', e'⟩ := l.keep hk (lt_of_some h1)
    cases B with
    | nil =>
      have := At.off (w := w') (css := css.set m cs') (p := p) (cs := cs') (A := cs') (B := []) (by simp) l' (by rw [e', h1]) (h2.keep hk)
      simpa [Cursor.remove] using this
    | cons y B =>
      obtain ⟨ny, h3, h3k, h3v, h4⟩ := seg_mid hr.core.seg
      by_cases hx : KeyOps.eq k y.k = true
      · rw [eraseK_hit hd hx] at he
        subst he
        have ht : Trail w'.nodes (css.set m (A ++ B)) (headP (y :: B)) [y] (headP B) :=
          ⟨rfl, loose_of hw hm (by simp) (nodup_mid hr.core.nodup), ny, by rw [hc.node hd hx, h3], h3k, h3v, h4.head⟩
        have := At.off (w := w') (css := css.set m (A ++ B)) (p := p) (A := A) (B := B) (G := G ++ [y]) rfl l' (by rw [e', h1]) ((h2.keep hk).append ht)
        simpa [Cursor.remove, hx, kv_append] using this
      · have hx' : KeyOps.eq k y.k = false := by simpa using hx
        have e : eraseK k (A ++ y :: B) = eraseK k A ++ y :: eraseK k B := by simp [eraseK, hx']
        have := At.off (w := w') (css := css.set m cs') (p := p) (B := y :: eraseK k B) (G := G) (he.trans e) l' (by rw [e', h1]) (h2.keep hk)
        simpa [Cursor.remove, hx', kv_eraseK] using this

theorem At.removes [LawfulKey K] {w w' : World K V} {css s m g cs cs' p c} {ks : List K} (h : At w css cs p c) (hw : WR w css s) (hm : css[m]? = some cs)
    (hr : RepM w m g cs) (hg : Good g cs) (hc : Cuts m w ks cs w' cs') : At w' (css.set m cs') cs' p (ks.foldl Cursor.remove c) := by
  induction hc generalizing css s g c with
  | nil =>
    rw [set_same hm]
    exact h
  | @cons w w1 w' g1 k ks cs cs1 cs' h1 h2 h3 h4 h5 ih =>
    have hk := Keeps.eff hm h4
    have := h.remove hw hm hr hg.distinct h1 hk
    have := ih this (hw.eff hm h4 h2 h3) (set_get hm) h2 h3
    rwa [List.set_set] at this

end Verif.HMap
