import Verif.Alias.ResolveStep
/-! # What `Replace` does -/
set_option autoImplicit false
set_option linter.unusedVariables false
set_option linter.unusedSimpArgs false
set_option linter.unusedSectionVars false
namespace Verif.Alias.Res

variable {get : Name → Option Nat} {H0 : Heap}

/-- Arrays and maps: they are not emptied. -/
def isVal : Node → Bool
  | .array _ | .hash _ => true
  | _ => false

theorem val_withKids {nd : Node} (h : isVal nd = true) (ys : List Nat) : isVal (nd.withKids ys) = true ∧ (nd.withKids ys).kids = ys := by
  cases nd <;> simp_all [isVal, Node.withKids, Node.kids, Node.parts]

theorem cells_val {nd : Node} (h : isVal nd = true) : cells nd = nd.kids := by
  cases nd <;> simp_all [isVal, cells, Node.kids, Node.parts]

theorem setCell_val {nd : Node} (h : isVal nd = true) (i q : Nat) : setCell nd i q = nd.withKids (nd.kids.set i q) := by
  cases nd <;> simp_all [isVal, setCell, Node.withKids, Node.kids, Node.parts]

theorem val_not_box {nd : Node} (h : isVal nd = true) : isBox nd = false := by
  cases nd <;> simp_all [isVal, isBox]

theorem forall₂_get {α : Type} {r : α → α → Prop} {l m : List α} (h : List.Forall₂ r l m) {i : Nat} {x y : α} (hx : l[i]? = some x) (hy : m[i]? = some y) :
    r x y := by
  induction h generalizing i with
  | nil => simp at hx
  | cons hxy _ ih =>
    cases i with
    | zero => simp at hx hy; subst hx; subst hy; exact hxy
    | succ i => simp at hx hy; exact ih hx hy

theorem forall₂_set {α : Type} {r : α → α → Prop} {l m : List α} (h : List.Forall₂ r l m) {i : Nat} {x q : α} (hx : l[i]? = some x) (hq : r x q) :
    List.Forall₂ r l (m.set i q) := by
  induction h generalizing i with
  | nil => simp at hx
  | cons hxy ht ih =>
    cases i with
    | zero => simp at hx; subst hx; exact .cons hq ht
    | succ i => simp at hx; exact .cons hxy (ih hx)

/-- What has been done of the cells before `i` -/
def Before (get : Name → Option Nat) (H0 : Heap) (B : Nat → Prop) (p i : Nat) (H : Heap) : Prop :=
  ∀ j, j < i → DoneAt get H0 H p j ∧ ∀ x, (H0 p).kids[j]? = some x → Known get H0 x ∧ ∀ a, Path H0 B x a → Full get H0 H a

theorem Before.mono {B : Nat → Prop} {p i : Nat} {H H' : Heap} (h : Before get H0 B p i H) (hp : ¬ B p) (hm : Mono get H0 H H' B) :
    Before get H0 B p i H' :=
  fun j hj => ⟨hm p hp j (h j hj).1, fun x hx => ⟨((h j hj).2 x hx).1, fun a ha => hm.full ha.last (((h j hj).2 x hx).2 a ha)⟩⟩

theorem cells_post {R : Nat → Prop} (hc : NoChain get H0) (hany : R anyT) (hcl : Closed get H0 R) {rep : St → Nat → Out Nat}
    (hr : RepOk get H0 R rep) (p : Nat) (B : Nat → Prop) (hp : R p) (hv : isVal (H0 p) = true) (k i : Nat) (s : St) (hok : Ok get H0 s.heap B)
    (hik : i + k = (H0 p).kids.length) (hb : Before get H0 B p i s.heap) :
    Post get H0 R B s [p] (fun _ => True) (resolveCells rep p i k s) := by
  have hpB : ¬ B p := by
    intro h
    have := ((hok p).1 h).1
    rw [val_not_box hv] at this; cases this
  have hna : ¬ IsAlias (H0 p) := by rintro ⟨n, hn⟩; rw [hn] at hv; cases hv
  induction k generalizing i s with
  | zero =>
    have hlen := ((hok p).2 hpB).len
    unfold Fits at hlen
    have hf : Full get H0 s.heap p := by
      constructor
      · refine List.ext_getElem? fun j => ?_
        by_cases hj : j < i
        · exact (hb j hj).1
        · rw [List.getElem?_eq_none (by omega), List.getElem?_eq_none (by simp; omega)]
      · intro x hx
        obtain ⟨j, hj, e⟩ := List.getElem_of_mem hx
        exact ((hb j (by omega)).2 x (by rw [List.getElem?_eq_getElem hj, e])).1
    refine ⟨hok, trivial, fun t ht n hn => ?_, fun a _ i h => h, fun t ht a hpath => ?_, .refl s⟩
    · rw [List.mem_singleton.mp ht] at hn
      exact absurd ⟨n, hn⟩ hna
    · rw [List.mem_singleton.mp ht] at hpath
      rcases hpath.head with rfl | ⟨x, hx, hpx⟩
      · exact hf
      · obtain ⟨j, hj, e⟩ := List.getElem_of_mem hx
        exact ((hb j (by omega)).2 x (by rw [List.getElem?_eq_getElem hj, e])).2 a hpx
  | succ k ih =>
    have hbt := (hok p).2 hpB
    have hvs : isVal (s.heap p) = true := by rw [hbt.eq]; exact (val_withKids hv _).1
    have hlen := hbt.len
    unfold Fits at hlen
    have hi : i < (H0 p).kids.length := by omega
    obtain ⟨y, hy⟩ : ∃ y, (s.heap p).kids[i]? = some y := ⟨_, List.getElem?_eq_getElem (by omega)⟩
    obtain ⟨x, hx⟩ : ∃ x, (H0 p).kids[i]? = some x := ⟨_, List.getElem?_eq_getElem (by omega)⟩
    have hxy := forall₂_get hbt.kids hx hy
    have hyR : R y := closed_current hany hcl hok hp y (List.mem_of_getElem? hy)
    have h1 := hr s y B hok hyR
    rw [resolveCells]
    rw [cells_val hvs, hy]
    dsimp only
    cases e1 : rep s y with
    | more => trivial
    | panic s1 =>
      rw [e1] at h1
      obtain ⟨p1, p2, p3⟩ := h1
      refine ⟨fun S hS hs => ⟨p, by simp, fun hpS => ?_⟩, p2, p3⟩
      obtain ⟨t, ht, hn⟩ := p1 S hS hs
      rw [List.mem_singleton.mp ht] at hn
      exact hn (closed_current hS hs.toClosed hok hpS y (List.mem_of_getElem? hy))
    | ret s1 q =>
      rw [e1] at h1
      obtain ⟨ok1, g1, k1, m1, f1, t1⟩ := h1
      simp only [Out.bind]
      have hbt1 := (ok1 p).2 hpB
      have hvs1 : isVal (s1.heap p) = true := by rw [hbt1.eq]; exact (val_withKids hv _).1
      have hlen1 := hbt1.len
      unfold Fits at hlen1
      rw [setCell_val hvs1]
      have hq : q = standsFor get H0 x := by
        rw [g1]
        rcases hxy with rfl | rfl
        · rfl
        · exact stands_idem hc x
      have hkids2 : ((s1.heap p).withKids ((s1.heap p).kids.set i q)).kids = (s1.heap p).kids.set i q := (val_withKids hvs1 _).2
      have ok2 : Ok get H0 (s1.write p ((s1.heap p).withKids ((s1.heap p).kids.set i q))).heap B := by
        intro a
        by_cases ha : a = p
        · subst ha
          refine ⟨fun h => absurd h hpB, fun _ => ⟨(s1.heap a).kids.set i q, forall₂_set hbt1.kids hx (Or.inr hq), ?_⟩⟩
          show upd _ a _ a = _
          rw [write_heap_same]
          conv => lhs; arg 1; rw [hbt1.eq]
          rw [withKids_withKids hbt1.len (by simp [Fits, hlen1])]
        · refine ⟨fun h => ?_, fun h => ?_⟩
          · show _ ∧ upd _ p _ a = _
            rw [write_heap_other ha]; exact (ok1 a).1 h
          · obtain ⟨ys, hf, he⟩ := (ok1 a).2 h
            exact ⟨ys, hf, by show upd _ p _ a = _; rw [write_heap_other ha]; exact he⟩
      have m2 : Mono get H0 s1.heap (s1.write p ((s1.heap p).withKids ((s1.heap p).kids.set i q))).heap B := by
        intro a hB j hd
        by_cases ha : a = p
        · subst ha
          unfold DoneAt
          show ((upd s1.heap a _) a).kids[j]? = _
          rw [write_heap_same, hkids2]
          by_cases hj : j = i
          · subst hj
            rw [List.getElem?_set_self (by omega)]
            simp [hx, hq]
          · rw [List.getElem?_set_ne (fun h => hj h.symm)]; exact hd
        · unfold DoneAt
          show ((upd s1.heap p _) a).kids[j]? = _
          rw [write_heap_other ha]; exact hd
      have hb2 : Before get H0 B p (i + 1) (s1.write p ((s1.heap p).withKids ((s1.heap p).kids.set i q))).heap := by
        intro j hj
        by_cases hji : j = i
        · subst hji
          constructor
          · unfold DoneAt
            show ((upd s1.heap p _) p).kids[j]? = _
            rw [write_heap_same, hkids2, List.getElem?_set_self (by omega)]
            simp [hx, hq]
          · intro x' hx'
            rw [hx] at hx'
            cases hx'
            constructor
            · exact known_of (l := [x]) (m := [y]) (.cons hxy .nil) (fun z hz => by rw [List.mem_singleton.mp hz]; exact k1 y (by simp)) x (by simp)
            · intro a hpath
              by_cases hxa : IsAlias (H0 x)
              · exact path_alias_full ok2 hpath hxa
              · have : y = x := by
                  rw [stands_nonalias hxa] at hxy
                  rcases hxy with h | h <;> exact h
                subst this
                exact m2.full hpath.last (f1 y (by simp) a hpath)
        · exact (hb.mono hpB (m1.trans m2)) j (by omega)
      have h2 := ih (i + 1) _ ok2 (by omega) hb2
      have t2 : Trace get H0 R s (s1.write p ((s1.heap p).withKids ((s1.heap p).kids.set i q))) := t1.trans (.write _ ok1 hp)
      cases e2 : resolveCells rep p (i + 1) k (s1.write p ((s1.heap p).withKids ((s1.heap p).kids.set i q))) with
      | more => trivial
      | panic s3 =>
        rw [e2] at h2
        exact ⟨h2.1, h2.2.1, t2.trans h2.2.2⟩
      | ret s3 u =>
        rw [e2] at h2
        obtain ⟨o3, _, k3, m3, f3, t3⟩ := h2
        exact ⟨o3, trivial, k3, (m1.trans m2).trans m3, f3, t2.trans t3⟩

/-- A type that is not written itself and whose only part is `v` -/
theorem exact_post {R : Nat → Prop} (hany : R anyT) (hcl : Closed get H0 R) {rep : St → Nat → Out Nat}
    (hr : RepOk get H0 R rep) (s : St) (p v : Nat) (B : Nat → Prop) (hok : Ok get H0 s.heap B) (hp : R p) (hk : (H0 p).kids = [v]) (hk' : (s.heap p).kids = [v])
    (hb : isBox (H0 p) = false) (hv : ¬ IsAlias (H0 v)) :
    Post get H0 R B s [p] (fun _ => True) ((rep s v).bind fun s _ => .ret s ()) := by
  have hpB : ¬ B p := fun h => by
    have := ((hok p).1 h).1
    rw [hb] at this; cases this
  have hvR : R v := closed_current hany hcl hok hp v (by rw [hk']; simp)
  have hna : ¬ IsAlias (H0 p) := by rintro ⟨n, hn⟩; rw [hn] at hk; cases hk
  have h1 := hr s v B hok hvR
  cases e1 : rep s v with
  | more => trivial
  | panic s1 =>
    rw [e1] at h1
    obtain ⟨p1, p2, p3⟩ := h1
    refine ⟨fun S hS hs => ⟨p, by simp, fun hpS => ?_⟩, p2, p3⟩
    obtain ⟨t, ht, hn⟩ := p1 S hS hs
    rw [List.mem_singleton.mp ht] at hn
    exact hn (closed_current hS hs.toClosed hok hpS v (by rw [hk']; simp))
  | ret s1 q =>
    rw [e1] at h1
    obtain ⟨ok1, g1, k1, m1, f1, t1⟩ := h1
    have hf : Full get H0 s1.heap p := by
      refine m1.full hpB ⟨?_, ?_⟩
      · rw [hk', hk]; simp [stands_nonalias hv]
      · intro x hx n hn
        rw [hk] at hx
        rw [List.mem_singleton.mp hx] at hn
        exact absurd ⟨n, hn⟩ hv
    refine ⟨ok1, trivial, fun t ht n hn => ?_, m1, fun t ht a hpath => ?_, t1⟩
    · rw [List.mem_singleton.mp ht] at hn
      exact absurd ⟨n, hn⟩ hna
    · rw [List.mem_singleton.mp ht] at hpath
      rcases hpath.head with rfl | ⟨x, hx, hpx⟩
      · exact hf
      · rw [hk] at hx
        rw [List.mem_singleton.mp hx] at hpx
        exact f1 v (by simp) a hpx

/-- Nothing to be gone through -/
theorem leaf_post {R : Nat → Prop} (s : St) (p : Nat) (B : Nat → Prop) (hok : Ok get H0 s.heap B) (hk : (H0 p).kids = []) (hna : ¬ IsAlias (H0 p)) :
    Post get H0 R B s [p] (fun _ => True) (.ret s ()) := by
  refine ⟨hok, trivial, fun t ht n hn => ?_, fun a _ i h => h, fun t ht a hpath => ?_, .refl s⟩
  · rw [List.mem_singleton.mp ht] at hn
    exact absurd ⟨n, hn⟩ hna
  · rw [List.mem_singleton.mp ht] at hpath
    rcases hpath.head with rfl | ⟨x, hx, hpx⟩
    · constructor
      · have := ((hok a).2 hpath.first).kids
        rw [hk] at this ⊢
        exact List.forall₂_nil_left_iff.mp this
      · intro x hx; rw [hk] at hx; simp at hx
    · rw [hk] at hx; simp at hx

theorem kids_of_exact {v : Nat} {nd : Node} {ys : List Nat} (h : Fits nd ys) (he : nd.withKids ys = .exactArr v ∨ nd.withKids ys = .exactMap v) :
    ∃ w, (nd = .exactArr w ∨ nd = .exactMap w) ∧ ys = [v] := by
  unfold Fits at h
  cases nd with
  | arr t | not t | typeOf t =>
    match ys, h with
    | [_], _ => simp [Node.withKids] at he
  | exactArr t | exactMap t =>
    match ys, h with
    | [_], _ => simp [Node.withKids] at he; subst he; exact ⟨t, by simp, rfl⟩
  | map k v =>
    match ys, h with
    | [_, _], _ => simp [Node.withKids] at he
  | _ => simp [Node.withKids] at he

theorem same_leaf {nd : Node} {ys : List Nat} (h : Fits nd ys) :
    ((∀ e, nd.withKids ys = .leaf e → nd = .leaf e) ∧ (∀ ps, nd.withKids ys = .opaque ps → nd = .opaque ps)) ∧
    isVal (nd.withKids ys) = isVal nd := by
  unfold Fits at h
  cases nd with
  | arr t | not t | typeOf t | exactArr t | exactMap t =>
    match ys, h with
    | [_], _ => simp [Node.withKids, isVal]
  | map k v =>
    match ys, h with
    | [_, _], _ => simp [Node.withKids, isVal]
  | _ => simp [Node.withKids, isVal]

theorem resolve_post {R : Nat → Prop} (hwf : WF H0) (hc : NoChain get H0) (hany : R anyT) (hcl : Closed get H0 R) {rep : St → Nat → Out Nat}
    (hr : RepOk get H0 R rep) (s : St) (p : Nat) (B : Nat → Prop) (hok : Ok get H0 s.heap B) (hp : R p) (hna : ¬ IsAlias (H0 p)) :
    Post get H0 R B s [p] (fun _ => True) (resolve rep s p (s.heap p)) := by
  by_cases hb : isBox (s.heap p) = true
  · exact box_post hwf hc hany hcl hr s p B hok hp hb
  · have hb0 : isBox (H0 p) = false := by rw [← hok.box]; simpa using hb
    have hpB : ¬ B p := fun h => by
      have := ((hok p).1 h).1
      rw [hb0] at this; cases this
    have hbt := (hok p).2 hpB
    have hsl := same_leaf hbt.len
    rw [← hbt.eq] at hsl
    cases hs : s.heap p with
    | «alias» n => exact absurd ⟨n, (hok.alias p n).1 hs⟩ hna
    | leaf e =>
      have := hsl.1.1 e hs
      exact leaf_post s p B hok (by rw [this]; rfl) hna
    | «opaque» ps =>
      have := hsl.1.2 ps hs
      exact leaf_post s p B hok (by rw [this]; rfl) hna
    | exactArr v =>
      obtain ⟨w, hw, hk⟩ := kids_of_exact (v := v) hbt.len (Or.inl (hbt.eq.symm.trans hs))
      have hf := hbt.kids
      have hwk : (H0 p).kids = [w] := by rcases hw with h | h <;> rw [h] <;> rfl
      have hwn : ¬ IsAlias (H0 w) := by
        rcases hw with h | h
        · obtain ⟨es, e⟩ := hwf.exactArr p w h
          rintro ⟨n, hn⟩; rw [hn] at e; cases e
        · rcases hwf.exactMap p w h with ⟨es, e⟩ | ⟨es, e⟩ <;> (rintro ⟨n, hn⟩; rw [hn] at e; cases e)
      rw [hwk, hk] at hf
      have hvw : v = w := by
        cases hf with
        | cons h _ => rw [stands_nonalias hwn] at h; rcases h with h | h <;> exact h
      subst hvw
      exact exact_post hany hcl hr s p v B hok hp hwk hk hb0 hwn
    | exactMap v =>
      obtain ⟨w, hw, hk⟩ := kids_of_exact (v := v) hbt.len (Or.inr (hbt.eq.symm.trans hs))
      have hf := hbt.kids
      have hwk : (H0 p).kids = [w] := by rcases hw with h | h <;> rw [h] <;> rfl
      have hwn : ¬ IsAlias (H0 w) := by
        rcases hw with h | h
        · obtain ⟨es, e⟩ := hwf.exactArr p w h
          rintro ⟨n, hn⟩; rw [hn] at e; cases e
        · rcases hwf.exactMap p w h with ⟨es, e⟩ | ⟨es, e⟩ <;> (rintro ⟨n, hn⟩; rw [hn] at e; cases e)
      rw [hwk, hk] at hf
      have hvw : v = w := by
        cases hf with
        | cons h _ => rw [stands_nonalias hwn] at h; rcases h with h | h <;> exact h
      subst hvw
      exact exact_post hany hcl hr s p v B hok hp hwk hk hb0 hwn
    | array es =>
      have hv : isVal (H0 p) = true := by rw [← hsl.2, hs]; rfl
      have hl := hbt.len
      unfold Fits at hl
      rw [hs] at hl
      exact cells_post hc hany hcl hr p B hp hv es.length 0 s hok (by rw [← hl]; simp [Node.kids, Node.parts]) (fun j hj => absurd hj (by omega))
    | hash es =>
      have hv : isVal (H0 p) = true := by rw [← hsl.2, hs]; rfl
      have hl := hbt.len
      unfold Fits at hl
      rw [hs] at hl
      exact cells_post hc hany hcl hr p B hp hv es.length 0 s hok (by rw [← hl]; simp [Node.kids, Node.parts]) (fun j hj => absurd hj (by omega))
    | _ => rw [hs] at hb; simp [isBox] at hb

theorem replace_post {R : Nat → Prop} (hwf : WF H0) (hc : NoChain get H0) (hany : R anyT) (hcl : Closed get H0 R) (n : Nat) :
    RepOk get H0 R (replace get n) := by
  induction n with
  | zero => intro s p B _ _; trivial
  | succ n ih =>
    intro s p B hok hp
    by_cases ha : IsAlias (H0 p)
    · obtain ⟨nm, hn⟩ := ha
      have hn' := (hok.alias p nm).2 hn
      have hpB : ¬ B p := fun h => by
        have := ((hok p).1 h).1
        rw [hn] at this; cases this
      rw [replace.eq_def]
      simp only [hn']
      cases hg : get nm with
      | some q =>
        refine ⟨hok, (stands_alias hn hg).symm, fun t ht m hm => ?_, fun a _ i h => h, fun t ht a hpath => ?_, .refl s⟩
        · rw [List.mem_singleton.mp ht, hn] at hm
          cases hm; exact ⟨q, hg⟩
        · rw [List.mem_singleton.mp ht] at hpath
          exact path_alias_full hok hpath ⟨nm, hn⟩
      | none =>
        refine ⟨fun S hS hs => ⟨p, by simp, fun hpS => ?_⟩, ⟨B, hok, fun _ h => h, fun _ _ _ _ _ h => h⟩, .refl s⟩
        obtain ⟨q, hq⟩ := hs.known p nm hpS hn
        rw [hg] at hq; cases hq
    · have h := resolve_post hwf hc hany hcl ih s p B hok hp ha
      have e : replace get (n + 1) s p = (resolve (replace get n) s p (s.heap p)).bind fun s _ => .ret s p := by
        rw [replace.eq_def]
        dsimp only
        split
        · rename_i nm he; exact absurd ⟨nm, (hok.alias p nm).1 he⟩ ha
        · rfl
      rw [e]
      cases e1 : resolve (replace get n) s p (s.heap p) with
      | more => trivial
      | panic s1 => rw [e1] at h; exact h
      | ret s1 u =>
        rw [e1] at h
        obtain ⟨o, _, k, m, f, t⟩ := h
        exact ⟨o, (stands_nonalias ha).symm, k, m, f, t⟩

end Verif.Alias.Res
