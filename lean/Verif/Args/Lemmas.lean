import Verif.Args.Model
import Verif.Arr.Props
set_option autoImplicit false
set_option linter.unusedVariables false
set_option linter.unusedSimpArgs false
set_option linter.unusedSectionVars false
namespace Verif.Args
variable {A : Type} [DecidableEq A]

theorem same_content {h : Nat → List (Val A)} {x y : Val A} (hx : x.On h) (hy : y.On h) (e : x.same y = true) : x.content = y.content := by
  cases x <;> cases y <;> simp_all [Val.same, Val.content, Val.On]

theorem equals_arr (p q : Nat) (k l : Bool) (es fs : List (Val A)) :
    equals (.arr p k es) (.arr q l fs) = ((p == q && k == l) || (!l && sliceEquals es fs)) := by
  cases l <;> simp [equals, Val.same]
theorem equals_arr_atom (p : Nat) (k : Bool) (es : List (Val A)) (b : A) : equals (.arr p k es) (.atom b) = false := by
  simp [equals, Val.same]

mutual
theorem equals_content {h : Nat → List (Val A)} : ∀ {x y : Val A}, x.On h → y.On h → equals x y = true → x.content = y.content
  | .atom a, y, hx, hy, e => same_content hx hy (by simpa [equals] using e)
  | .arr p k es, y, hx, hy, e => by
    cases y with
    | atom b => rw [equals_arr_atom] at e; cases e
    | arr q l fs =>
      rw [equals_arr, Bool.or_eq_true] at e
      rcases e with e | e
      · exact same_content hx hy (by simpa [Val.same] using e)
      · rw [Bool.and_eq_true] at e
        rw [Val.content, Val.content, sliceEquals_contents hx.2 hy.2 e.2]
theorem sliceEquals_contents {h : Nat → List (Val A)} : ∀ {es fs : List (Val A)}, AllOn h es → AllOn h fs → sliceEquals es fs = true →
    contents es = contents fs
  | [], [], _, _, _ => rfl
  | e :: es, f :: fs, hx, hy, h => by
    rw [sliceEquals, Bool.and_eq_true] at h
    rw [contents, contents, equals_content hx.1 hy.1 h.1, sliceEquals_contents hx.2 hy.2 h.2]
  | [], _ :: _, _, _, h => by simp [sliceEquals] at h
  | _ :: _, [], _, _, h => by simp [sliceEquals] at h
end

mutual
theorem equals_of_content : ∀ {x y : Val A}, y.Plain → x.content = y.content → equals x y = true
  | .atom a, .atom b, _, e => by simpa [equals, Val.same, Val.content] using e
  | .atom a, .arr _ _ _, _, e => by simp [Val.content] at e
  | .arr _ _ _, .atom _, _, e => by simp [Val.content] at e
  | .arr p k es, .arr q l fs, hp, e => by
    obtain ⟨rfl, hp⟩ := hp
    rw [Val.content, Val.content, Content.arr.injEq] at e
    rw [equals_arr, sliceEquals_of_contents hp e]
    simp
theorem sliceEquals_of_contents : ∀ {es fs : List (Val A)}, AllPlain fs → contents es = contents fs → sliceEquals es fs = true
  | [], [], _, _ => by simp [sliceEquals]
  | e :: es, f :: fs, hp, h => by
    rw [contents, contents, List.cons.injEq] at h
    rw [sliceEquals, equals_of_content hp.1 h.1, sliceEquals_of_contents hp.2 h.2]; rfl
  | [], _ :: _, _, h => by simp [contents] at h
  | _ :: _, [], _, h => by simp [contents] at h
end

mutual
theorem equals_plain : ∀ {x y : Val A}, (∀ p ∈ x.addrs, p ∉ y.addrs) → equals x y = true → y.Plain
  | .atom a, y, _, e => by
    cases y <;> simp_all [equals, Val.same, Val.Plain]
  | .arr p k es, y, hd, e => by
    cases y with
    | atom b => simp [Val.Plain]
    | arr q l fs =>
      rw [equals_arr, Bool.or_eq_true] at e
      rcases e with e | e
      · simp at e
        exact absurd (by simp [Val.addrs, e.1]) (hd p (by simp [Val.addrs]))
      · cases l with
        | true => simp at e
        | false =>
          refine ⟨rfl, sliceEquals_plain (fun p hp hq => hd p ?_ ?_) (by simpa using e)⟩
          · simp [Val.addrs, hp]
          · simp [Val.addrs, hq]
theorem sliceEquals_plain : ∀ {es fs : List (Val A)}, (∀ p ∈ allAddrs es, p ∉ allAddrs fs) → sliceEquals es fs = true → AllPlain fs
  | [], [], _, _ => trivial
  | e :: es, f :: fs, hd, h => by
    rw [sliceEquals, Bool.and_eq_true] at h
    exact ⟨equals_plain (fun p hp hq => hd p (by simp [allAddrs, hp]) (by simp [allAddrs, hq])) h.1,
      sliceEquals_plain (fun p hp hq => hd p (by simp [allAddrs, hp]) (by simp [allAddrs, hq])) h.2⟩
  | [], _ :: _, _, h => by simp [sliceEquals] at h
  | _ :: _, [], _, h => by simp [sliceEquals] at h
end

theorem inner_on {h : Nat → List (Val A)} {x : Val A} (hx : x.On h) : x.inner.On h := by
  cases x <;> exact hx
theorem inner_content (x : Val A) : x.inner.content = x.content := by
  cases x <;> rfl
theorem inner_addrs (x : Val A) : x.inner.addrs = x.addrs := by
  cases x <;> rfl

mutual
theorem hash_content {h : A → BitVec 64} : ∀ {x y : Val A}, x.content = y.content → hashCode h x = hashCode h y
  | .atom a, .atom b, e => by simp [Val.content] at e; rw [e]
  | .atom a, .arr _ _ _, e => by simp [Val.content] at e
  | .arr _ _ _, .atom _, e => by simp [Val.content] at e
  | .arr p k es, .arr q l fs, e => by
    rw [Val.content, Val.content, Content.arr.injEq] at e
    rw [hashCode, hashCode, hashSlice_contents e]
theorem hashSlice_contents {h : A → BitVec 64} : ∀ {es fs : List (Val A)} {acc : BitVec 64}, contents es = contents fs →
    hashSlice h acc es = hashSlice h acc fs
  | [], [], _, _ => rfl
  | e :: es, f :: fs, acc, h => by
    rw [contents, contents, List.cons.injEq] at h
    rw [hashSlice, hashSlice, hash_content h.1, hashSlice_contents h.2]
  | [], _ :: _, _, h => by simp [contents] at h
  | _ :: _, [], _, h => by simp [contents] at h
end

theorem contents_eq_map : ∀ (es : List (Val A)), contents es = es.map Val.content
  | [] => rfl
  | e :: es => by rw [contents, contents_eq_map es]; rfl

theorem allPlain_iff : ∀ (es : List (Val A)), AllPlain es ↔ ∀ e ∈ es, e.Plain
  | [] => by simp [AllPlain]
  | e :: es => by simp [AllPlain, allPlain_iff es]

theorem instAll_iff {t : Ty A} : ∀ (es : List (Val A)), instAll t es = true ↔ ∀ e ∈ es, inst t e = true
  | [] => by simp [instAll]
  | e :: es => by simp [instAll, instAll_iff es]

mutual
theorem inst_iff : ∀ (t : Ty A) {v : Val A}, v.Plain → (inst t v = true ↔ t.Means v.content)
  | .any, v, _ => by simp [inst, Ty.Means]
  | .atom p, v, _ => by cases v <;> simp [inst, Ty.Means, Val.content]
  | .arrays, v, _ => by cases v <;> simp [inst, Ty.Means, Val.content]
  | .sized t min max, v, hp => by
    cases v with
    | atom a => simp [inst, Ty.Means, Val.content]
    | arr p k es =>
      obtain ⟨rfl, hp⟩ := hp
      rw [allPlain_iff] at hp
      simp only [inst, Ty.Means, Val.content, Bool.and_eq_true, decide_eq_true_eq, instAll_iff, contents_eq_map, List.length_map, List.mem_map,
        forall_exists_index, and_imp, forall_apply_eq_imp_iff₂, and_assoc]
      exact and_congr_right fun _ => and_congr_right fun _ => forall₂_congr fun e he => inst_iff t (hp e he)
  | .tuple ts v, x, hp => by
    cases x with
    | atom a => simp [inst, Ty.Means, Val.content]
    | arr p k es =>
      obtain ⟨rfl, hp⟩ := hp
      simp only [inst, Ty.Means, Val.content]
      exact instTuple_iff ts v hp
theorem instTuple_iff : ∀ (ts : List (Ty A)) (v : Bool) {es : List (Val A)}, AllPlain es → (instTuple ts v es = true ↔ MeansTuple ts v (contents es))
  | [], v, es, _ => by cases es <;> simp [instTuple, MeansTuple, contents]
  | [t], true, es, hp => by
    rw [allPlain_iff] at hp
    simp only [instTuple, MeansTuple, instAll_iff, contents_eq_map, List.mem_map, forall_exists_index, and_imp, forall_apply_eq_imp_iff₂]
    exact forall₂_congr fun e he => inst_iff t (hp e he)
  | [t], false, es, hp => by
    cases es with
    | nil => simp [instTuple, MeansTuple, contents]
    | cons e es =>
      have h1 := inst_iff t hp.1
      have h2 := instTuple_iff [] false hp.2
      simp only [instTuple, MeansTuple, contents, Bool.and_eq_true, List.cons.injEq, h1, h2]
      constructor
      · rintro ⟨a, b⟩; exact ⟨_, _, ⟨rfl, rfl⟩, a, b⟩
      · rintro ⟨_, _, ⟨rfl, rfl⟩, a, b⟩; exact ⟨a, b⟩
  | t :: u :: ts, v, es, hp => by
    cases es with
    | nil => simp [instTuple, MeansTuple, contents]
    | cons e es =>
      have h1 := inst_iff t hp.1
      have h2 := instTuple_iff (u :: ts) v hp.2
      rw [instTuple, MeansTuple, contents, Bool.and_eq_true, h1, h2]
      · constructor
        · rintro ⟨a, b⟩; exact ⟨_, _, rfl, a, b⟩
        · rintro ⟨_, _, e, a, b⟩; cases e; exact ⟨a, b⟩
      · simp
      · simp
end

mutual
theorem exactInst_iff : ∀ {x y : Val A}, y.Plain → (exactInst x y = true ↔ x.content = y.content)
  | .atom a, .atom b, _ => by simp [exactInst, Val.content]
  | .atom a, .arr _ _ _, _ => by simp [exactInst, Val.content]
  | .arr _ _ _, .atom _, _ => by simp [exactInst, Val.content]
  | .arr p k es, .arr q l fs, hp => by
    obtain ⟨rfl, hp⟩ := hp
    rw [exactInst, Val.content, Val.content, Content.arr.injEq, exactInstAll_iff hp]
theorem exactInstAll_iff : ∀ {es fs : List (Val A)}, AllPlain fs → (exactInstAll es fs = true ↔ contents es = contents fs)
  | [], [], _ => by simp [exactInstAll]
  | e :: es, f :: fs, hp => by
    rw [exactInstAll, Bool.and_eq_true, exactInst_iff hp.1, exactInstAll_iff hp.2, contents, contents, List.cons.injEq]
  | [], _ :: _, _ => by simp [exactInstAll, contents]
  | _ :: _, [], _ => by simp [exactInstAll, contents]
end

theorem fill_some {V : Type} : ∀ (es : List V) (done : List V) (n : Nat), es.length ≤ n →
    fill (done.map some ++ List.replicate n none) done.length es = some ((done ++ es).map some ++ List.replicate (n - es.length) none)
  | [], done, n, _ => by simp [fill]
  | e :: es, done, n, h => by
    obtain ⟨m, rfl⟩ : ∃ m, n = m + 1 := ⟨n - 1, by simp at h; omega⟩
    rw [fill, if_pos (by simp)]
    have : (done.map some ++ List.replicate (m + 1) (none : Option V)).set done.length (some e) = (done ++ [e]).map some ++ List.replicate m none := by
      rw [List.set_append_right _ _ (by simp)]
      simp [List.replicate_succ]
    rw [this]
    have := fill_some es (done ++ [e]) m (by simp at h; omega)
    simp only [List.length_append, List.length_cons, List.length_nil] at this
    rw [this]
    simp
theorem fill_none {V : Type} : ∀ (es : List V) (s : List (Option V)) (i : Nat), i ≤ s.length → s.length < i + es.length → fill s i es = none
  | [], s, i, h1, h => by simp at h; omega
  | e :: es, s, i, h1, h => by
    rw [fill]
    split
    · exact fill_none es _ _ (by simp; omega) (by simp at h ⊢; omega)
    · rfl

theorem addAll_eq (a fs : List (Val A)) (p : Nat) (k : Bool) : addAll a (.arr p k fs) = a ++ fs := by
  have : ∀ (fs a : List (Val A)), fs.foldl (fun a e => a ++ [e]) a = a ++ fs := by
    intro fs
    induction fs with
    | nil => simp
    | cons e es ih => intro a; rw [List.foldl_cons, ih]; simp
  simp [addAll, this]

mutual
theorem flattenElements_eq : ∀ (r es : List (Val A)), AllPlain es → flattenElements r es = r ++ (leavesAll (contents es)).map .atom
  | r, [], _ => by simp [flattenElements, contents, leavesAll]
  | r, e :: es, hp => by
    rw [flattenElements, flattenElement_eq r e hp.1, flattenElements_eq _ es hp.2, contents, leavesAll]
    simp
theorem flattenElement_eq : ∀ (r : List (Val A)) (e : Val A), e.Plain → flattenElement r e = r ++ (e.content.leaves).map .atom
  | r, .atom a, _ => by simp [flattenElement, Val.content, Content.leaves]
  | r, .arr p k es, hp => by
    obtain ⟨rfl, hp⟩ := hp
    rw [flattenElement, flattenElements_eq r es hp, Val.content, Content.leaves]
end

mutual
theorem flattenElements_mem : ∀ (r es : List (Val A)) (x : Val A), x ∈ r ∨ x ∈ es ∧ x.IsArgs → x ∈ flattenElements r es
  | r, [], x, h => by simpa [flattenElements] using h
  | r, e :: es, x, h => by
    rw [flattenElements]
    refine flattenElements_mem _ es x ?_
    rcases h with h | ⟨h, ha⟩
    · exact .inl (flattenElement_mem r e x (.inl h))
    · rcases List.mem_cons.1 h with h | h
      · exact .inl (flattenElement_mem r e x (.inr ⟨h, ha⟩))
      · exact .inr ⟨h, ha⟩
theorem flattenElement_mem : ∀ (r : List (Val A)) (e x : Val A), x ∈ r ∨ x = e ∧ x.IsArgs → x ∈ flattenElement r e
  | r, .atom a, x, h => by
    simp only [flattenElement, List.mem_append, List.mem_singleton]
    exact h.imp id (·.1)
  | r, .arr p true es, x, h => by
    simp only [flattenElement, List.mem_append, List.mem_singleton]
    exact h.imp id (·.1)
  | r, .arr p false es, x, h => by
    rw [flattenElement]
    refine flattenElements_mem r es x (.inl ?_)
    rcases h with h | ⟨rfl, h⟩
    · exact h
    · simp [Val.IsArgs] at h
end

open Verif.Arr

theorem fromArray_sep {V : Type} [ElemOps V] {w : World V} (hw : Sep w) {a : Nat} (h : ∀ g, w.arrs[a]? = some g → g.frozen = true) :
    Sep (fromArray w a).2 ∧ ∀ j < w.arrs.length, view (fromArray w a).2 j = view w j := by
  unfold fromArray onArr
  cases hg : w.arrs[a]? with
  | none => exact ⟨hw, fun _ _ => rfl⟩
  | some g =>
    have hf := h g hg
    have hin := hw.bnd.arrs a g hg
    have hc : SafeChange w none (newArr w (g.sl, w.stores) g.frozen).2 :=
      .new g.sl w.stores g.frozen hin (.inr ⟨hf, a, g, 0, hg, hf, rfl, Frame.refl _ _ _, .inl rfl⟩)
    have hb : Bnd (newArr w (g.sl, w.stores) g.frozen).2 := by
      refine ⟨fun i g' hi => ?_, hw.bnd.raws⟩
      rcases getElem?_snoc hi with hi | ⟨rfl, rfl⟩
      · exact hw.bnd.arrs i g' hi
      · exact hin
    obtain ⟨h1, h2⟩ := hc.sep hw hb
    exact ⟨h1, fun j hj => h2 j (by simp) hj⟩

end Verif.Args
