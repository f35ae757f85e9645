import Verif.Graph.Safe
import Verif.Graph.Equal
/-!
# Object graphs: the properties C20 to C23 and C51
-/
set_option autoImplicit false
namespace Verif.Graph

/-! ### C20: Freeze -/

theorem mutable_back {h h' : Heap} (x : Fz h h') {q : Nat} (m : IsMutable h' q) : IsMutable h q := by
  obtain ⟨o, ho, hf⟩ := m
  obtain ⟨o1, h1, h2⟩ := x.back ho
  rcases h2 with h2 | h2
  · subst h2; exact ⟨_, h1, hf⟩
  · subst h2
    cases o1 <;> simp_all [Obj.froze, Obj.flag]

/-- What is `Done` after a freeze reaches nothing mutable, when frozen collections did not before. -/
theorem Froze.reach {h h' : Heap} {S : Nat → Prop} (x : Froze h h' S) (hd : DeeplyFrozen h) {r : Ref} {q : Nat}
    (hr : Reach h' r q) (hdone : Done h' r) : ¬ IsMutable h' q := by
  induction hr with
  | here p => exact hdone.not_mutable
  | @step p q o c hp hc hr ih =>
    cases hdone with
    | flag hp' hf =>
      rw [hp] at hp'; cases hp'
      by_cases e : h[p]? = some o
      · intro m
        exact hd p ⟨o, e, hf⟩ q (x.fz.reach.1 (.step hp hc hr)) (mutable_back x.fz m)
      · exact ih (x.deep p o hp e c hc)
    | wrap hp' hw hv =>
      rw [hp] at hp'; cases hp'
      rw [wrapped_children hw] at hc
      rw [List.mem_singleton.1 hc] at ih; exact ih hv

/-- **C20.**  After `Freeze` has returned, every array, map and binary reachable from the value is frozen.
Missing: it does not hold in a heap in which a frozen collection contains a mutable one (`C20_stops_at_frozen`), and
`Freeze` need not return (`C20_diverges`). -/
theorem C20_deep_partial {h h' : Heap} (hd : DeeplyFrozen h) {n : Nat} {r : Ref} (e : freeze n r h = .ok () h') :
    ∀ (q : Nat) (o : Obj), Reach h r q → h[q]? = some o → o.flag ≠ none → IsFrozen h' q := by
  intro q o hr ho hf
  obtain ⟨x, hdone⟩ := freeze_froze n e
  have hm := x.reach hd (x.fz.reach.2 hr) hdone
  rcases x.fz.obj q o ho with h1 | h1
  · match hb : o.flag with
    | none => exact absurd hb hf
    | some true => exact ⟨o, h1, hb⟩
    | some false => exact absurd ⟨o, h1, hb⟩ hm
  · match hb : o.flag with
    | none => exact absurd hb hf
    | some b => exact ⟨_, h1, flag_froze hb⟩

/-- **C20, other collections.**  What is not reachable is not touched, and of what is reachable only flags are set; also when
`Freeze` panics. -/
theorem C20_nothing_else {h h' : Heap} {n : Nat} {r : Ref} :
    (freeze n r h = .ok () h' → ∀ q, ¬ Reach h r q → h'[q]? = h[q]?) ∧
    (freeze n r h = .ok () h' ∨ freeze n r h = .panic h' →
      h'.length = h.length ∧ ∀ (q : Nat) (o : Obj), h[q]? = some o → h'[q]? = some o ∨ h'[q]? = some o.froze) := by
  refine ⟨fun e q hq => ?_, fun e => ⟨(freeze_fz n e).len, (freeze_fz n e).obj⟩⟩
  by_cases hc : h'[q]? = h[q]?
  · exact hc
  · exact absurd ((freeze_froze n e).1.only q hc) hq

/-- **C20, for ever.**  No sequence of calls, whether they succeed or panic, changes a frozen array, map or binary: it has the
same elements, nodes or bytes and is still frozen. -/
theorem C20_stays {h h' : Heap} {n : Nat} {ops : List Op} (e : run n h ops = some h') {p : Nat} (f : IsFrozen h p) :
    h'[p]? = h[p]? ∧ IsFrozen h' p := by
  obtain ⟨o, ho, hf⟩ := f
  have := run_kp n ops e p o ho hf
  exact ⟨this.trans ho.symm, ⟨o, this, hf⟩⟩

theorem forEach_panic {α : Type} {f : α → M Heap Unit} {l : List α} {P : Heap → Prop} {h h' : Heap} (hP : P h)
    (hok : ∀ a ∈ l, ∀ h1 h2, P h1 → f a h1 = .ok () h2 → P h2) (e : forEach f l h = .panic h') :
    ∃ a ∈ l, ∃ h1, P h1 ∧ f a h1 = .panic h' := by
  induction l generalizing h with
  | nil => cases e
  | cons a as ih =>
    rcases bind_eq_panic e with e1 | ⟨u, h1, e1, e2⟩
    · exact ⟨a, by simp, h, hP, e1⟩
    · obtain ⟨b, hb, h2, p2, e3⟩ := ih (hok a (by simp) _ _ hP e1) (fun b hb => hok b (by simp [hb])) e2
      exact ⟨b, by simp [hb], h2, p2, e3⟩

/-- A panic of `Freeze` is due to a native value. -/
theorem freeze_panic (n : Nat) {r : Ref} {h h' : Heap} (e : freeze n r h = .panic h') :
    ∃ q, Reach h r q ∧ (h[q]? = none ∨ ∃ i, h[q]? = some (.native i)) := by
  induction n generalizing r h h' with
  | zero => cases r <;> cases e
  | succ n ih =>
    cases r with
    | atom i => cases e
    | obj p =>
      match hp : h[p]? with
      | none => exact ⟨p, .here p, .inl hp⟩
      | some o =>
        rw [freeze, M.bind_ok (load_run hp)] at e
        -- a panic inside an element of the collection whose flag was set
        have inside : ∀ (o1 : Obj) (c : Ref) (h1 : Heap), o1 = o.froze → c ∈ o.children → Fz (h.set p o1) h1 → freeze n c h1 = .panic h' →
            ∃ q, Reach h (.obj p) q ∧ (h[q]? = none ∨ ∃ i, h[q]? = some (.native i)) := by
          rintro o1 c h1 rfl hc x e1
          have x := (Fz.set hp).trans x
          obtain ⟨q, hr, hq⟩ := ih e1
          refine ⟨q, .step hp hc (x.reach.1 hr), ?_⟩
          rcases hq with hq | ⟨i, hq⟩
          · left
            rw [List.getElem?_eq_none_iff] at hq ⊢
            rw [← x.len]; exact hq
          · obtain ⟨o1, h3, h4⟩ := x.back hq
            right
            rcases h4 with h4 | h4
            · subst h4; exact ⟨i, h3⟩
            · refine ⟨i, ?_⟩
              cases o1 <;> simp_all [Obj.froze]
        have same : o.froze = o → ∀ c ∈ o.children, freeze n c h = .panic h' →
            ∃ q, Reach h (.obj p) q ∧ (h[q]? = none ∨ ∃ i, h[q]? = some (.native i)) := by
          intro hs c hc e1
          refine inside o c h hs.symm hc ?_ e1
          have : h.set p o = h := by
            apply List.ext_getElem?
            intro i
            by_cases hi : i = p
            · subst hi; rw [get_set hp, hp]
            · rw [get_set_ne hi]
          rw [this]; exact Fz.refl h
        cases o with
        | native i => exact ⟨p, .here p, .inr ⟨i, hp⟩⟩
        | bin f bs => cases e
        | entry k v => exact same rfl v (by simp [Obj.children]) e
        | sens v => exact same rfl v (by simp [Obj.children]) e
        | arr f es =>
          cases f
          · have e : (store p (.arr true es) >>= fun _ => forEach (freeze n) es) h = .panic h' := e
            rw [M.bind_ok (store_run _ _ _)] at e
            obtain ⟨c, hc, h1, x, e1⟩ := forEach_panic (P := fun h1 => Fz (h.set p (.arr true es)) h1) (Fz.refl _)
              (fun a _ h1 h2 x e2 => x.trans (freeze_fz n (.inl e2))) e
            exact inside _ c h1 rfl hc x e1
          · cases e
        | map f tl es =>
          cases f
          · have e : (store p (.map true tl es) >>= fun _ => forEach (fun e => freeze n (.obj e)) es) h = .panic h' := e
            rw [M.bind_ok (store_run _ _ _)] at e
            obtain ⟨c, hc, h1, x, e1⟩ := forEach_panic (P := fun h1 => Fz (h.set p (.map true tl es)) h1) (Fz.refl _)
              (fun a _ h1 h2 x e2 => x.trans (freeze_fz n (.inl e2))) e
            exact inside _ (.obj c) h1 rfl (by simpa [Obj.children] using hc) x e1
          · cases e

/-- **C20, Freeze returns.**  On a value that exists and contains no native values, `Freeze` returns, also when it is cyclic, if
no map entry or sensitive value contains itself directly. -/
theorem C20_returns_partial {h : Heap} (hw : NoWrapperCycle h) (r : Ref)
    (hn : ∀ q, Reach h r q → ∃ o, h[q]? = some o ∧ ∀ i, o ≠ .native i) :
    ∃ n h', ∀ m, n ≤ m → freeze m r h = .ok () h' := by
  obtain ⟨k, hk⟩ := hw r
  obtain ⟨n, hne⟩ := freeze_ends (unfrozen h) k r h (Nat.le_refl _) hw hk
  match e : freeze n r h with
  | .diverge => exact absurd e hne
  | .panic h' =>
    obtain ⟨q, h1, h2⟩ := freeze_panic n e
    obtain ⟨o, h3, h4⟩ := hn q h1
    rcases h2 with h2 | ⟨i, h2⟩
    · rw [h3] at h2; cases h2
    · rw [h3] at h2; cases h2; exact absurd rfl (h4 i)
  | .ok () h' =>
    refine ⟨n, h', fun m hm => ?_⟩
    rw [freeze_mono hm r h hne, e]

/-- A cyclic array: `a := MutableValues(); m := {1: a}; a.Add(m); a.Add(a)`.  Freezing the map freezes the array, and then
nothing can be added to it. -/
abbrev exCyclic : List Op := [.newArr [], .newMap 8, .put 1 1 (.obj 0), .add 0 (.obj 1), .add 0 (.obj 0)]

example : run 9 [] exCyclic = some [.arr false [.obj 1, .obj 0], .map false 9 [2], .entry 1 (.obj 0)] ∧
    run 9 [] (exCyclic ++ [.freeze (.obj 1), .add 0 (.atom 7)]) =
      some [.arr true [.obj 1, .obj 0], .map true 9 [2], .entry 1 (.obj 0)] := by decide +kernel

/-- `Freeze` does not look into collections that are frozen already: `vf.Values().With(m)` is frozen and contains the mutable
`m`; an array that contains it is frozen, and `m` is still mutable. -/
theorem C20_stops_at_frozen :
    run 9 [] [.newMap 8, .values [], .with 1 (.obj 0), .newArr [.obj 2], .freeze (.obj 3)] =
      some [.map false 9 [], .arr true [], .arr true [.obj 0], .arr true [.obj 2]] := by decide +kernel

/-- A map whose entry is its own value: `m.Put(k, e)` where `e` is the entry of `m` for `k`.  `Freeze` does not return,
whatever the stack size. -/
theorem C20_diverges :
    run 9 [] [.newMap 8, .put 0 5 (.atom 1), .put 0 5 (.obj 1)] = some [.map false 9 [1], .entry 5 (.obj 1)] ∧
    ∀ n, freeze n (.obj 0) [.map false 9 [1], .entry 5 (.obj 1)] = .diverge := by
  refine ⟨by decide +kernel, fun n => ?_⟩
  have self : ∀ n h, h[1]? = some (Obj.entry 5 (.obj 1)) → freeze n (.obj 1) h = .diverge := by
    intro n
    induction n with
    | zero => intro h _; rfl
    | succ n ih =>
      intro h hh
      rw [freeze, M.bind_ok (load_run hh)]
      exact ih h hh
  cases n with
  | zero => rfl
  | succ n =>
    rw [freeze, M.bind_ok (load_run rfl)]
    show (store 0 (.map true 9 [1]) >>= fun _ => forEach (fun e => freeze n (.obj e)) [1]) _ = _
    rw [M.bind_ok (store_run _ _ _), forEach]
    exact bind_diverge (self n _ rfl)

/-! ### C21: FrozenCopy -/

theorem frozenCopy_mono {n m : Nat} (hnm : n ≤ m) (r : Ref) : Le (frozenCopy n r) (frozenCopy m r) := by
  induction hnm with
  | refl => exact Le.refl _
  | step _ ih => exact ih.trans (frozenCopy_step _ r)

theorem Cp.reach {h h' : Heap} (x : Cp h h') (hw : WellFormed h) (hd : DeeplyFrozen h) {r : Ref} {q : Nat} (hr : Reach h' r q)
    (hdone : Done h' r) : ¬ IsMutable h' q := by
  have inner : ∀ {r : Ref} {q : Nat}, Reach h' r q → Exists' h r → Reach h r q ∧ q < h.length := by
    intro r q hr
    induction hr with
    | here p => intro ex; exact ⟨.here p, ex p rfl⟩
    | @step p q o c hp hc _ ih =>
      intro ex
      have hp' := x.ext.back (ex p rfl) hp
      obtain ⟨h1, h2⟩ := ih fun q' e => hw.1 p o hp' q' (e ▸ hc)
      exact ⟨.step hp' hc h1, h2⟩
  induction hr with
  | here p => exact hdone.not_mutable
  | @step p q o c hp hc hr ih =>
    cases hdone with
    | flag hp' hf =>
      rw [hp] at hp'; cases hp'
      by_cases hlt : p < h.length
      · obtain ⟨h1, h2⟩ := inner (.step hp hc hr) fun q' e => (by cases e; exact hlt)
        rintro ⟨o', ho', hf'⟩
        exact hd p ⟨o, x.ext.back hlt hp, hf⟩ q h1 ⟨o', x.ext.back h2 ho', hf'⟩
      · exact ih (x.deep p o (by omega) hp hf c hc)
    | wrap hp' hw hv =>
      rw [hp] at hp'; cases hp'
      rw [wrapped_children hw] at hc
      rw [List.mem_singleton.1 hc] at ih; exact ih hv

theorem geq_of_tree {h : Heap} {a b : Ref} {t t' : Value.Val} (ha : IsTree h a t) (hb : IsTree h b t') (w : Value.WF t) :
    ∃ n, ∀ m, n ≤ m → geq m h [] a b = some (Value.eq t t') := by
  obtain ⟨n, ha⟩ := ha
  obtain ⟨n', hb⟩ := hb
  refine ⟨max n n' + 1, fun m hm => geq_mono hm (geq_tree _ [] a b t t' (tree_mono (by omega) ha) (tree_mono (by omega) hb) w ?_)⟩
  intro s hs; cases hs

/-- **C21.**  `FrozenCopy` of an acyclic value returns.  All objects that existed are as they were (`h` is a prefix of `h'`), so
that a mutable original is still mutable.  The copy stands for the same tree and is equal to the original.  Everything
reachable from it is frozen.  A frozen value is its own copy, and the copy of a mutable collection is a new one. -/
theorem C21_frozen_copy {h : Heap} (hw : WellFormed h) (hd : DeeplyFrozen h) {r : Ref} {t : Value.Val} (ht : IsTree h r t)
    (wt : Value.WF t) :
    ∃ n r' h', (∀ m, n ≤ m → frozenCopy m r h = .ok r' h') ∧ h <+: h' ∧ IsTree h' r' t ∧
      (∃ k, ∀ m, k ≤ m → geq m h' [] r r' = some true ∧ geq m h' [] r' r = some true) ∧
      (∀ q, Reach h' r' q → ¬ IsMutable h' q) ∧
      (FrozenValue h r → r' = r ∧ h' = h) ∧
      (∀ p, r = .obj p → IsMutable h p → ∃ q, r' = .obj q ∧ h.length ≤ q) := by
  obtain ⟨n, hn⟩ := ht
  obtain ⟨r', h', e, x, ht'⟩ := frozenCopy_tree n hn
  obtain ⟨cp, dn, same, fresh⟩ := (frozenCopy_spec n).1 _ _ e
  refine ⟨n, r', h', fun m hm => by rw [frozenCopy_mono hm r h (by rw [e]; simp), e], x, ⟨n, ht'⟩, ?_,
    fun q hr => cp.reach hw hd hr dn, fun f => same f.done, fresh⟩
  have hr' : IsTree h' r t := ⟨n, x.tr hn⟩
  obtain ⟨k1, h1⟩ := geq_of_tree hr' ⟨n, ht'⟩ wt
  obtain ⟨k2, h2⟩ := geq_of_tree ⟨n, ht'⟩ hr' wt
  refine ⟨max k1 k2, fun m hm => ⟨?_, ?_⟩⟩
  · rw [h1 m (by omega), Value.laws.refl t wt]
  · rw [h2 m (by omega), Value.laws.refl t wt]

/-- A mutable array with a frozen array, a mutable map and a sensitive binary. -/
abbrev exMixed : Heap := [.arr true [.atom 1], .entry 3 (.obj 0), .map false 9 [1], .bin false [7], .sens (.obj 3),
  .arr false [.obj 0, .obj 2, .obj 4]]

example : frozenCopy 9 (.obj 5) exMixed = .ok (.obj 10) (exMixed ++
    [.entry 3 (.obj 0), .map true 16 [6], .bin true [7], .sens (.obj 8), .arr true [.obj 0, .obj 7, .obj 9]]) ∧
    tree 9 exMixed (.obj 5) = some (.arr [.arr [.int 1], .map [(.int 3, .arr [.int 1])], .sens (.bin [7])]) := by
  constructor <;> rfl

/-- `FrozenCopy` of an array that contains itself does not return; nor does `ThawedCopy`. -/
theorem C21_cyclic_diverges (n : Nat) :
    frozenCopy n (.obj 0) [.arr false [.obj 0]] = .diverge ∧ thawedCopy n (.obj 0) [.arr false [.obj 0]] = .diverge := by
  induction n with
  | zero => exact ⟨rfl, rfl⟩
  | succ n ih =>
    constructor
    · rw [frozenCopy, M.bind_ok (load_run rfl)]
      show (mapEach (frozenCopy n) [.obj 0] >>= _) _ = _
      exact bind_diverge (bind_diverge ih.1)
    · rw [thawedCopy, M.bind_ok (load_run rfl)]
      show (mapEach (thawedCopy n) [.obj 0] >>= _) _ = _
      exact bind_diverge (bind_diverge ih.2)

/-! ### C22: frozen collections contain only frozen things -/

theorem Inv.empty : Inv [] := ⟨fun _ _ e => by simp at e, fun _ _ _ _ e => by simp at e, fun _ _ _ _ _ _ _ e => by simp at e, fun _ _ e => by simp at e⟩

theorem SafeRun.inv {n : Nat} {h h' : Heap} {ops : List Op} (s : SafeRun n h ops h') (i : Inv h) : Inv h' := by
  induction s with
  | nil h => exact i
  | ok so e _ ih => exact ih ((safe_inv n i so).ok _ _ e)
  | panic so e _ ih => exact ih ((safe_inv n i so).panic _ e)

/-- **C22.**  Whatever a program of safe calls does, a frozen collection contains no mutable one at any depth.
Missing: the calls that `SafeOp` excludes, which break it, below. -/
theorem C22_safe_partial {n : Nat} {ops : List Op} {h : Heap} (s : SafeRun n [] ops h) : DeeplyFrozen h :=
  (s.inv Inv.empty).deep.deeply

/-- Frozen array of a frozen copy of a mutable map; the map stays mutable. -/
example : ∃ h, SafeRun 9 [] [.newMap 8, .put 0 1 (.atom 2), .values [.obj 0], .put 0 1 (.atom 3)] h ∧ IsFrozen h 4 ∧
    h[4]? = some (.arr true [.obj 3]) ∧ h[3]? = some (.map true 16 [2]) ∧ h[2]? = some (.entry 1 (.atom 2)) ∧
    h[1]? = some (.entry 1 (.atom 3)) := by
  refine ⟨_, .ok trivial rfl (.ok (fun q e => by cases e) rfl (.ok ?_ rfl (.ok (fun q e => by cases e) rfl (.nil _)))), ?_⟩
  · intro r hr q e
    simp only [List.mem_singleton] at hr
    subst hr; cases e
    refine ⟨by decide, fun p f tl es hp => ?_⟩
    match p with
    | 0 => cases hp; simp
    | 1 => cases hp
    | p + 2 => simp at hp
  · exact ⟨⟨_, rfl, rfl⟩, rfl, rfl, rfl, rfl⟩

/-- The program leaves a frozen collection that contains a mutable one. -/
def Breaks (ops : List Op) : Prop := ∃ n h, run n [] ops = some h ∧ ∃ p q, IsFrozen h p ∧ Reach h (.obj p) q ∧ IsMutable h q

theorem breaks_elem {n : Nat} {ops : List Op} {h : Heap} {p q : Nat} {es : List Ref} {o : Obj} (e : run n [] ops = some h)
    (hp : h[p]? = some (.arr true es)) (hc : .obj q ∈ es) (hq : h[q]? = some o) (hf : o.flag = some false) : Breaks ops :=
  ⟨n, h, e, p, q, ⟨_, hp, rfl⟩, .step hp hc (.here q), ⟨_, hq, hf⟩⟩

theorem breaks_entry {n : Nat} {ops : List Op} {h : Heap} {p q e0 tl : Nat} {k : BitVec 64} {es : List Nat} {o : Obj} (e : run n [] ops = some h)
    (hp : h[p]? = some (.map true tl es)) (hc : e0 ∈ es) (he : h[e0]? = some (.entry k (.obj q))) (hq : h[q]? = some o)
    (hf : o.flag = some false) : Breaks ops :=
  ⟨n, h, e, p, q, ⟨_, hp, rfl⟩, .step hp (List.mem_map_of_mem hc) (.step he (by simp [Obj.children]) (.here q)), ⟨_, hq, hf⟩⟩

/-- `vf.Values().With(vf.MutableValues())` -/
theorem C22_with_breaks : Breaks [.values [], .newArr [], .with 0 (.obj 1)] :=
  breaks_elem (n := 9) (p := 2) (q := 1) rfl rfl (by simp) rfl rfl

/-- `vf.Values(1).Map(func(..) { return mutable })` -/
theorem C22_map_breaks : Breaks [.newArr [], .values [.atom 1], .arrMap 1 fun _ => .obj 0] :=
  breaks_elem (n := 9) (p := 2) (q := 0) rfl rfl (by simp) rfl rfl

/-- `vf.Values(vf.Values()).WithAll(vf.Values(1))`: the elements of the frozen receiver are replaced by thawed copies. -/
theorem C22_withAll_breaks : Breaks [.values [], .values [.obj 0], .values [.atom 1], .withAll 1 2] :=
  breaks_elem (n := 9) (p := 4) (q := 3) rfl rfl (by simp) rfl rfl

/-- `With` of a frozen map -/
theorem C22_mapWith_breaks : Breaks [.emptyMap, .newArr [], .mapWith 0 1 (.obj 1)] :=
  breaks_entry (n := 9) (p := 3) (e0 := 2) (q := 1) (k := 1) rfl rfl (by simp) rfl rfl rfl

/-- `Map` of a frozen map -/
theorem C22_mapMap_breaks : Breaks [.newArr [], .emptyMap, .mapWith 1 1 (.atom 1), .mapMap 3 fun _ _ => .obj 0] :=
  breaks_entry (n := 9) (p := 5) (e0 := 4) (q := 0) (k := 1) rfl rfl (by simp) rfl rfl rfl

/-- `Merge` of a frozen map with a mutable one that contains something mutable -/
theorem C22_merge_breaks :
    Breaks [.newArr [], .emptyMap, .mapWith 1 1 (.atom 1), .newMap 8, .put 4 2 (.obj 0), .merge 3 4] :=
  breaks_entry (n := 9) (p := 7) (e0 := 9) (q := 0) (k := 2) rfl rfl (by simp) rfl rfl rfl

/-- `ThawedCopy` of an entry of a frozen map stores the thawed value in the entry. -/
theorem C22_entry_thawedCopy_breaks : Breaks [.values [], .emptyMap, .mapWith 1 1 (.obj 0), .thawedCopy (.obj 2)] :=
  breaks_entry (n := 9) (p := 3) (e0 := 2) (q := 5) (k := 1) rfl rfl (by simp) rfl rfl rfl

/-- `Freeze` that panics at a native value leaves the array frozen and what follows mutable. -/
theorem C22_panicking_freeze_breaks : Breaks [.native 0, .newArr [], .newArr [.obj 0, .obj 1], .freeze (.obj 2)] :=
  breaks_elem (n := 9) (p := 2) (q := 1) rfl rfl (by simp) rfl rfl

/-- An entry of a mutable map is an element of a frozen array; it counts as frozen as long as its value is, and `Put` of the map
gives it another value. -/
theorem C22_shared_entry_breaks :
    Breaks [.newMap 8, .put 0 1 (.atom 1), .values [.obj 1], .newArr [], .put 0 1 (.obj 3)] :=
  ⟨9, _, rfl, 2, 3, ⟨_, rfl, rfl⟩, .step rfl (List.mem_cons_self ..) (.step rfl (List.mem_cons_self ..) (.here 3)),
    ⟨_, rfl, rfl⟩⟩

/-! ### C23: ThawedCopy -/

/-- **C23.**  `ThawedCopy` of an acyclic value in which no map entries are elements returns.  All objects that existed are as they
were.  The copy stands for the same tree and is equal to the original; nothing reachable from it is frozen, and the mutable
collections reachable from it are new ones.  The copy of a collection is a new, mutable collection.
Missing: map entries as receiver or inside, for which it does not hold (`C23_entry_is_changed`). -/
theorem C23_thawed_copy_partial {h : Heap} {r : Ref} {t : Value.Val} (ht : IsTree h r t) (ef : EntryFree t) (wt : Value.WF t) :
    ∃ n r' h', (∀ m, n ≤ m → thawedCopy m r h = .ok r' h') ∧ h <+: h' ∧ IsTree h' r' t ∧
      (∃ k, ∀ m, k ≤ m → geq m h' [] r r' = some true ∧ geq m h' [] r' r = some true) ∧
      (∀ q, Reach h' r' q → ¬ IsFrozen h' q ∧ (IsMutable h' q → h.length ≤ q)) ∧
      (∀ p, r = .obj p → IsFrozen h p ∨ IsMutable h p → ∃ q, r' = .obj q ∧ h.length ≤ q ∧ IsMutable h' q) := by
  obtain ⟨n, hn⟩ := ht
  obtain ⟨r', h', e, x, ht', fr, nw⟩ := thawedCopy_tree h.length n (Nat.le_refl _) hn ef
  refine ⟨n, r', h', fun m hm => by rw [thaw_mono hm r h (by rw [e]; simp), e], x, ⟨n, ht'⟩, ?_, fun q hr => fr.reach hr, nw⟩
  have hr' : IsTree h' r t := ⟨n, x.tr hn⟩
  obtain ⟨k1, h1⟩ := geq_of_tree hr' ⟨n, ht'⟩ wt
  obtain ⟨k2, h2⟩ := geq_of_tree ⟨n, ht'⟩ hr' wt
  refine ⟨max k1 k2, fun m hm => ⟨?_, ?_⟩⟩
  · rw [h1 m (by omega), Value.laws.refl t wt]
  · rw [h2 m (by omega), Value.laws.refl t wt]

example : thawedCopy 9 (.obj 5) exMixed = .ok (.obj 12) (exMixed ++ [.arr false [.atom 1], .arr false [.atom 1], .entry 3 (.obj 7),
    .map false 16 [8], .bin false [7], .sens (.obj 10), .arr false [.obj 6, .obj 9, .obj 11]]) := by rfl

/-- `ThawedCopy` of an entry gives the receiver the thawed value, and the copy the old one: after
`e := vf.MapEntry(1, vf.Values()); c := e.ThawedCopy()` the value of `e` is a new mutable array and `c` is frozen. -/
theorem C23_entry_is_changed :
    run 9 [] [.values [], .newEntry 1 (.obj 0)] = some [.arr true [], .entry 1 (.obj 0)] ∧
    thawedCopy 9 (.obj 1) [.arr true [], .entry 1 (.obj 0)] =
      .ok (.obj 2) [.arr true [], .entry 1 (.obj 3), .entry 1 (.obj 0), .arr false []] := by constructor <;> rfl

/-! ### C51: equality of cyclic structures -/

/-- **C51, Equals returns.**  For every two values of a heap, with whatever cycles, `Equals` returns, and its recursion is not
deeper than the number of objects plus 2. -/
theorem C51_returns {h : Heap} (hw : WellFormed h) {a b : Ref} (ha : Exists' h a) (hb : Exists' h b) :
    ∃ x, ∀ n, h.length + 2 ≤ n → geq n h [] a b = some x := by
  obtain ⟨x, hx⟩ := geq_some hw (h.length + 2) [] a b List.nodup_nil (fun _ hs => by cases hs) ha hb (by simp)
  exact ⟨x, fun n hn => geq_mono hn hx⟩

/-- **C51, equality.**  Values that cannot be told apart by looking at elements and values are equal, in both directions, even if
they are cyclic in different ways. -/
theorem C51_indistinguishable_equal {h : Heap} (hw : WellFormed h) {R : Ref → Ref → Prop} (hR : ∀ a b, R a b → SameStep h R a b)
    {a b : Ref} (r : R a b) (ha : Exists' h a) (hb : Exists' h b) : ∀ n, h.length + 2 ≤ n → geq n h [] a b = some true := by
  obtain ⟨x, hx⟩ := C51_returns hw ha hb
  intro n hn
  have := geq_bisim hR n [] a b r
  rw [hx n hn] at this ⊢
  cases x
  · exact absurd rfl this
  · rfl

/-- `a = [a]` and `b = [[b]]` -/
abbrev exLoops : Heap := [.arr false [.obj 0], .arr false [.obj 2], .arr false [.obj 1]]

theorem exLoops_same : ∀ a b, (∃ p q, a = .obj p ∧ b = .obj q ∧ p < 3 ∧ q < 3) →
    SameStep exLoops (fun a b => ∃ p q, a = .obj p ∧ b = .obj q ∧ p < 3 ∧ q < 3) a b := by
  rintro a b ⟨p, q, rfl, rfl, hp, hq⟩
  match p, q with
  | 0, 0 => exact .cons ⟨0, 0, rfl, rfl, by omega, by omega⟩ .nil
  | 0, 1 => exact .cons ⟨0, 2, rfl, rfl, by omega, by omega⟩ .nil
  | 0, 2 => exact .cons ⟨0, 1, rfl, rfl, by omega, by omega⟩ .nil
  | 1, 0 => exact .cons ⟨2, 0, rfl, rfl, by omega, by omega⟩ .nil
  | 1, 1 => exact .cons ⟨2, 2, rfl, rfl, by omega, by omega⟩ .nil
  | 1, 2 => exact .cons ⟨2, 1, rfl, rfl, by omega, by omega⟩ .nil
  | 2, 0 => exact .cons ⟨1, 0, rfl, rfl, by omega, by omega⟩ .nil
  | 2, 1 => exact .cons ⟨1, 2, rfl, rfl, by omega, by omega⟩ .nil
  | 2, 2 => exact .cons ⟨1, 1, rfl, rfl, by omega, by omega⟩ .nil
  | p + 3, _ => omega
  | _, q + 3 => omega

example : geq 5 exLoops [] (.obj 0) (.obj 1) = some true := by
  refine C51_indistinguishable_equal (h := exLoops) ?_ exLoops_same ⟨0, 1, rfl, rfl, by omega, by omega⟩ ?_ ?_ 5 (by decide)
  · refine ⟨fun p o hp q hq => ?_, fun p f tl es hp => ?_⟩
    · match p with
      | 0 => cases hp; simp [Obj.children] at hq; subst hq; decide
      | 1 => cases hp; simp [Obj.children] at hq; subst hq; decide
      | 2 => cases hp; simp [Obj.children] at hq; subst hq; decide
      | p + 3 => simp at hp
    · match p with
      | 0 => cases hp
      | 1 => cases hp
      | 2 => cases hp
      | p + 3 => simp at hp
  · intro q e; cases e; decide
  · intro q e; cases e; decide

/-- **C51, symmetry.**  `a.Equals(b)` and `b.Equals(a)` are the same for acyclic values.
Missing: cyclic values, for which it does not hold (`C51_not_symmetric`). -/
theorem C51_symmetric_partial {h : Heap} {a b : Ref} {t t' : Value.Val} (ha : IsTree h a t) (hb : IsTree h b t') (wt : Value.WF t)
    (wt' : Value.WF t') : ∃ k, ∀ n, k ≤ n → geq n h [] a b = geq n h [] b a ∧ geq n h [] a b = some (Value.eq t t') := by
  obtain ⟨k1, h1⟩ := geq_of_tree ha hb wt
  obtain ⟨k2, h2⟩ := geq_of_tree hb ha wt'
  refine ⟨max k1 k2, fun n hn => ⟨?_, h1 n (by omega)⟩⟩
  rw [h1 n (by omega), h2 n (by omega)]
  cases e : Value.eq t t' with
  | true => rw [Value.laws.symm t t' wt wt' e]
  | false =>
    cases e' : Value.eq t' t with
    | false => rfl
    | true => rw [Value.laws.symm t' t wt' wt e'] at e; cases e

example : geq 9 [.arr true [.atom 1, .atom 2], .arr false [.atom 1, .atom 2], .arr false [.obj 0], .arr true [.obj 1]] [] (.obj 2) (.obj 3) =
    some true := by rfl

/-- With `a = [a]` and `b = [[1]]`, `a.Equals(b)` is true and `b.Equals(a)` is false. -/
theorem C51_not_symmetric :
    run 9 [] [.newArr [], .add 0 (.obj 0), .newArr [.atom 1], .newArr [.obj 1]] =
      some [.arr false [.obj 0], .arr false [.atom 1], .arr false [.obj 1]] ∧
    (∀ n, 5 ≤ n → geq n [.arr false [.obj 0], .arr false [.atom 1], .arr false [.obj 1]] [] (.obj 0) (.obj 2) = some true ∧
      geq n [.arr false [.obj 0], .arr false [.atom 1], .arr false [.obj 1]] [] (.obj 2) (.obj 0) = some false) :=
  ⟨by decide +kernel, fun _ hn => ⟨geq_mono hn rfl, geq_mono hn rfl⟩⟩

/-- The cyclic arrays `a = [a]` and `b = [[b]]` are equal, and their hash codes are 62 and 93. -/
theorem C09_cyclic_hash_differs : geq 9 exLoops [] (.obj 0) (.obj 1) = some true ∧ hashCode 9 exLoops 0 = some 62 ∧
    hashCode 9 exLoops 1 = some 93 := ⟨rfl, by decide +kernel, by decide +kernel⟩

end Verif.Graph
