import Verif.HMap.Ops
/-!
# Facts about the specification of maps
-/
set_option linter.unusedSectionVars false
set_option linter.unusedSimpArgs false
namespace Verif.HMap
open Spec

variable {K V : Type} [KeyOps K] [ValOps V]

/-- Keys that `k` equals are not equal to a key `k` differs from. -/
theorem LawfulKey.diff [LawfulKey K] {k k' c : K} (h : KeyOps.eq k k' = false) (h1 : KeyOps.eq k c = true) :
    KeyOps.eq k' c = false := by
  cases h2 : KeyOps.eq k' c
  · rfl
  · rw [LawfulKey.trans _ _ _ h1 (LawfulKey.symm _ _ h2)] at h; cases h

theorem lookup_nil (k : K) : lookup k ([] : List (K × V)) = none := rfl

theorem lookup_cons (k : K) (e : K × V) (es : List (K × V)) :
    lookup k (e :: es) = if KeyOps.eq k e.1 then some e.2 else lookup k es := by
  unfold lookup
  rw [List.find?_cons]
  cases KeyOps.eq k e.1 <;> rfl

theorem lookup_append (k : K) (A B : List (K × V)) : lookup k (A ++ B) = (lookup k A).or (lookup k B) := by
  induction A with
  | nil => rfl
  | cons e A ih =>
    rw [List.cons_append, lookup_cons, lookup_cons, ih]
    split <;> rfl

theorem lookup_isSome (k : K) (es : List (K × V)) : (lookup k es).isSome = es.any fun e => KeyOps.eq k e.1 := by
  induction es with
  | nil => rfl
  | cons e es ih =>
    rw [lookup_cons, List.any_cons, ← ih]
    cases KeyOps.eq k e.1 <;> rfl

theorem lookup_map [LawfulKey K] (k k' : K) (v : V) (es : List (K × V)) :
    lookup k' (es.map fun e => if KeyOps.eq k e.1 then (e.1, v) else e) =
      if KeyOps.eq k k' then (lookup k es).map (fun _ => v) else lookup k' es := by
  induction es with
  | nil => simp [lookup_nil]
  | cons e es ih =>
    rw [List.map_cons, lookup_cons, ih, lookup_cons, lookup_cons]
    cases h : KeyOps.eq k k'
    · cases h1 : KeyOps.eq k e.1
      · simp
      · simp [LawfulKey.diff h h1]
    · have := LawfulKey.congr h e.1
      rw [← this]
      cases h1 : KeyOps.eq k e.1 <;> simp [h1, this ▸ h1]

theorem lookup_insert [LawfulKey K] (k k' : K) (v : V) (es : List (K × V)) :
    lookup k' (insert es k v) = if KeyOps.eq k k' then some v else lookup k' es := by
  unfold Spec.insert
  cases hs : lookup k es with
  | some o => rw [if_pos (by simp), lookup_map, hs]; simp
  | none =>
    rw [if_neg (by simp), lookup_append, lookup_cons, lookup_nil]
    have e : KeyOps.eq k' (KeyOps.freeze k) = KeyOps.eq k k' := by
      rw [LawfulKey.comm, LawfulKey.congr (LawfulKey.frz k)]
    dsimp only
    rw [e]
    cases h : KeyOps.eq k k'
    · simp
    · have : lookup k' es = none := by
        have h2 := hs
        unfold lookup at h2 ⊢
        rw [← h2]
        congr 2
        funext e
        exact (LawfulKey.congr h e.1).symm
      simp [this]

theorem lookup_erase [LawfulKey K] (k k' : K) (es : List (K × V)) :
    lookup k' (erase es k) = if KeyOps.eq k k' then none else lookup k' es := by
  unfold erase
  induction es with
  | nil => simp [lookup_nil]
  | cons e es ih =>
    rw [List.filter_cons, lookup_cons]
    cases h : KeyOps.eq k k'
    · rw [h] at ih
      cases h1 : KeyOps.eq k e.1
      · simp [lookup_cons, ih]
      · simp [ih, LawfulKey.diff h h1]
    · rw [h] at ih
      have := LawfulKey.congr h e.1
      cases h1 : KeyOps.eq k e.1
      · rw [h1] at this
        simp [lookup_cons, ← this, ih]
      · simp [ih]

/-- The keys after a put. -/
theorem keys_insert (k : K) (v : V) (es : List (K × V)) :
    (insert es k v).map (·.1) = if (lookup k es).isSome then es.map (·.1) else es.map (·.1) ++ [KeyOps.freeze k] := by
  unfold Spec.insert
  split
  · rw [List.map_map]
    apply List.map_congr_left
    intro e _
    simp only [Function.comp]
    split <;> rfl
  · simp

theorem keys_erase (k : K) (es : List (K × V)) :
    (erase es k).map (·.1) = (es.map (·.1)).filter fun k' => !KeyOps.eq k k' := by
  unfold erase
  rw [List.filter_map]
  rfl

theorem lookup_insertAll [LawfulKey K] (k : K) (es as : List (K × V)) (hd : DistinctKeys as) :
    lookup k (insertAll es as) = (lookup k as).or (lookup k es) := by
  unfold insertAll
  induction as generalizing es with
  | nil => rfl
  | cons a as ih =>
    have hd' := List.pairwise_cons.1 hd
    rw [List.foldl_cons, ih _ hd'.2, lookup_insert, lookup_cons, LawfulKey.comm k]
    cases h : KeyOps.eq a.1 k
    · simp
    · have : lookup k as = none := by
        apply lookup_miss
        intro e he
        rw [← LawfulKey.congr h]
        exact hd'.1 e he
      simp [this]

theorem lookup_eraseAll [LawfulKey K] (k : K) (es : List (K × V)) (ks : List K) :
    lookup k (eraseAll es ks) = if ks.any (fun k' => KeyOps.eq k' k) then none else lookup k es := by
  unfold eraseAll
  induction ks generalizing es with
  | nil => rfl
  | cons a ks ih =>
    rw [List.foldl_cons, ih, lookup_erase, List.any_cons]
    cases KeyOps.eq a k <;> simp

/-- The keys after PutAll: the old keys where they were, then the new ones in the order of the argument. -/
theorem keys_insertAll [LawfulKey K] (es as : List (K × V)) (hd : DistinctKeys as) :
    (insertAll es as).map (·.1) = es.map (·.1) ++
      ((as.map (·.1)).filter fun k => (lookup k es).isNone).map KeyOps.freeze := by
  unfold insertAll
  induction as generalizing es with
  | nil => simp
  | cons a as ih =>
    have hd' := List.pairwise_cons.1 hd
    rw [List.foldl_cons, ih _ hd'.2, keys_insert, List.map_cons, List.filter_cons]
    have e : (as.map (·.1)).filter (fun k => (lookup k (insert es a.1 a.2)).isNone) =
        (as.map (·.1)).filter (fun k => (lookup k es).isNone) := by
      apply List.filter_congr
      intro k hk
      obtain ⟨b, hb, rfl⟩ := List.mem_map.1 hk
      rw [lookup_insert, hd'.1 b hb]
      rfl
    rw [e]
    cases h : lookup a.1 es with
    | some o => simp
    | none => simp

theorem eraseAll_eq_filter (es : List (K × V)) (ks : List K) :
    eraseAll es ks = es.filter fun e => !ks.any fun k => KeyOps.eq k e.1 := by
  unfold eraseAll
  induction ks generalizing es with
  | nil => simp only [List.foldl_nil, List.any_nil, Bool.not_false]; exact (List.filter_eq_self.2 fun _ _ => rfl).symm
  | cons a ks ih =>
    rw [List.foldl_cons, ih]
    unfold erase
    rw [List.filter_filter]
    apply List.filter_congr
    intro e _
    rw [List.any_cons]
    cases KeyOps.eq a e.1 <;> simp

theorem keys_eraseAll (es : List (K × V)) (ks : List K) :
    (eraseAll es ks).map (·.1) = (es.map (·.1)).filter fun k' => !ks.any fun k => KeyOps.eq k k' := by
  unfold eraseAll
  induction ks generalizing es with
  | nil => simp only [List.foldl_nil, List.any_nil, Bool.not_false]; exact (List.filter_eq_self.2 fun _ _ => rfl).symm
  | cons a ks ih =>
    rw [List.foldl_cons, ih, keys_erase, List.filter_filter]
    apply List.filter_congr
    intro k _
    rw [List.any_cons]
    cases KeyOps.eq a k <;> simp

end Verif.HMap
