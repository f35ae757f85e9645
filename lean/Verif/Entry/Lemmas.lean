import Verif.Entry.Model
set_option autoImplicit false
set_option linter.unusedSectionVars false
set_option linter.unusedSimpArgs false
namespace Verif.Entry
variable {A : Type} [DecidableEq A]

mutual
theorem equals_refl : ∀ x : Val A, equals x x = true
  | .atom a => by simp [equals]
  | .arr f es => by rw [equals]; exact sliceEquals_refl es
  | .entry n k v => by rw [equals, equals_refl k, equals_refl v]; rfl
  | .sentry r k v => by simp [equals]
theorem sliceEquals_refl : ∀ es : List (Val A), sliceEquals es es = true
  | [] => by simp [sliceEquals]
  | e :: es => by rw [sliceEquals, equals_refl e, sliceEquals_refl es]; rfl
end

mutual
theorem equals_trans : ∀ {x y z : Val A}, equals x y = true → equals y z = true → equals x z = true
  | .atom a, y, z => by cases y <;> cases z <;> simp [equals] <;> intros <;> simp_all
  | .arr f es, y, z => by
    cases y <;> cases z <;> simp only [equals, Bool.false_eq_true, false_implies, implies_true]
    exact sliceEquals_trans
  | .entry n k v, y, z => by
    cases y <;> cases z <;> simp only [equals, Bool.false_eq_true, false_implies, implies_true, Bool.and_eq_true]
    · rintro ⟨h1, h2⟩ ⟨h3, h4⟩; exact ⟨equals_trans h1 h3, equals_trans h2 h4⟩
    · rintro ⟨h1, h2⟩ ⟨h3, h4⟩; exact ⟨equals_trans h1 h3, equals_trans h2 h4⟩
    · rintro ⟨h1, h2⟩ ⟨⟨_, h3⟩, h4⟩
      rw [beq_iff_eq] at h3 h4; subst h3 h4; exact ⟨h1, h2⟩
  | .sentry r k v, y, z => by
    cases y <;> cases z <;> simp only [equals, Bool.false_eq_true, false_implies, implies_true, Bool.and_eq_true, beq_iff_eq]
    rintro ⟨⟨h1, h2⟩, h3⟩ ⟨⟨h4, h5⟩, h6⟩; exact ⟨⟨h1.trans h4, h2.trans h5⟩, h3.trans h6⟩
theorem sliceEquals_trans : ∀ {es fs gs : List (Val A)}, sliceEquals es fs = true → sliceEquals fs gs = true → sliceEquals es gs = true
  | [], fs, gs => by cases fs <;> cases gs <;> simp [sliceEquals]
  | e :: es, fs, gs => by
    cases fs <;> cases gs <;> simp only [sliceEquals, Bool.false_eq_true, false_implies, implies_true, Bool.and_eq_true]
    rintro ⟨h1, h2⟩ ⟨h3, h4⟩; exact ⟨equals_trans h1 h3, sliceEquals_trans h2 h4⟩
end

mutual
theorem equals_content : ∀ {x y : Val A}, equals x y = true → x.content = y.content
  | .atom a, y => by cases y <;> simp [equals, Val.content]
  | .arr f es, y => by
    cases y <;> simp only [equals, Bool.false_eq_true, false_implies, implies_true, Val.content, Content.list.injEq]
    exact sliceEquals_contents
  | .entry n k v, y => by
    cases y <;> simp only [equals, Bool.false_eq_true, false_implies, implies_true, Val.content, Content.entry.injEq, Bool.and_eq_true]
    · rintro ⟨h1, h2⟩; exact ⟨equals_content h1, equals_content h2⟩
    · rintro ⟨h1, h2⟩; exact ⟨by simpa [Val.content] using equals_content h1, by simpa [Val.content] using equals_content h2⟩
  | .sentry r k v, y => by
    cases y <;> simp only [equals, Bool.false_eq_true, false_implies, implies_true, Val.content, Content.entry.injEq, Bool.and_eq_true, beq_iff_eq]
    rintro ⟨⟨_, rfl⟩, rfl⟩; exact ⟨rfl, rfl⟩
theorem sliceEquals_contents : ∀ {es fs : List (Val A)}, sliceEquals es fs = true → contents es = contents fs
  | [], fs => by cases fs <;> simp [sliceEquals, contents]
  | e :: es, fs => by
    cases fs <;> simp only [sliceEquals, Bool.false_eq_true, false_implies, implies_true, contents, List.cons.injEq, Bool.and_eq_true]
    rintro ⟨h1, h2⟩; exact ⟨equals_content h1, sliceEquals_contents h2⟩
end

mutual
theorem equals_of_content : ∀ {x y : Val A}, x.NoStruct → x.content = y.content → equals x y = true
  | .atom a, y, _ => by cases y <;> simp [equals, Val.content]
  | .arr f es, y, hx => by
    rw [Val.NoStruct] at hx
    cases y <;> simp only [equals, Val.content, Content.list.injEq, reduceCtorEq, false_implies]
    exact sliceEquals_of_contents hx
  | .entry n k v, y, hx => by
    rw [Val.NoStruct] at hx
    cases y <;> simp only [equals, Val.content, Content.entry.injEq, reduceCtorEq, false_implies, Bool.and_eq_true]
    · rintro ⟨h1, h2⟩; exact ⟨equals_of_content hx.1 h1, equals_of_content hx.2 h2⟩
    · rintro ⟨h1, h2⟩; exact ⟨equals_of_content hx.1 (by simpa [Val.content] using h1), equals_of_content hx.2 (by simpa [Val.content] using h2)⟩
  | .sentry r k v, y, hx => by simp [Val.NoStruct] at hx
theorem sliceEquals_of_contents : ∀ {es fs : List (Val A)}, AllNoStruct es → contents es = contents fs → sliceEquals es fs = true
  | [], fs, _ => by cases fs <;> simp [sliceEquals, contents]
  | e :: es, fs, hx => by
    rw [AllNoStruct] at hx
    cases fs <;> simp only [sliceEquals, contents, List.cons.injEq, reduceCtorEq, false_implies, Bool.and_eq_true]
    rintro ⟨h1, h2⟩; exact ⟨equals_of_content hx.1 h1, sliceEquals_of_contents hx.2 h2⟩
end

mutual
theorem bare_of_equals : ∀ {x y : Val A}, equals x y = true → equals y x = true → x.bare = y.bare
  | .atom a, y => by cases y <;> simp [equals, Val.bare] <;> intros <;> simp_all
  | .arr f es, y => by
    cases y <;> simp only [equals, Bool.false_eq_true, false_implies, implies_true, Val.bare, Val.arr.injEq, true_and]
    exact bares_of_equals
  | .entry n k v, y => by
    cases y <;> simp only [equals, Bool.false_eq_true, false_implies, implies_true, Val.bare, Val.entry.injEq, true_and, Bool.and_eq_true]
    rintro ⟨h1, h2⟩ ⟨h3, h4⟩; exact ⟨bare_of_equals h1 h3, bare_of_equals h2 h4⟩
  | .sentry r k v, y => by
    cases y <;> simp only [equals, Bool.false_eq_true, false_implies, implies_true, Val.bare, Bool.and_eq_true, beq_iff_eq]
    rintro ⟨⟨rfl, rfl⟩, rfl⟩ _; rfl
theorem bares_of_equals : ∀ {es fs : List (Val A)}, sliceEquals es fs = true → sliceEquals fs es = true → bares es = bares fs
  | [], fs => by cases fs <;> simp [sliceEquals, bares]
  | e :: es, fs => by
    cases fs <;> simp only [sliceEquals, Bool.false_eq_true, false_implies, implies_true, bares, List.cons.injEq, Bool.and_eq_true]
    rintro ⟨h1, h2⟩ ⟨h3, h4⟩; exact ⟨bare_of_equals h1 h3, bares_of_equals h2 h4⟩
end

mutual
theorem equals_bare : ∀ x : Val A, equals x x.bare = true ∧ equals x.bare x = true
  | .atom a => by simp [Val.bare, equals]
  | .arr f es => by rw [Val.bare, equals, equals]; exact sliceEquals_bares es
  | .entry n k v => by
    have h1 := equals_bare k; have h2 := equals_bare v
    rw [Val.bare, equals, equals, h1.1, h1.2, h2.1, h2.2]; exact ⟨rfl, rfl⟩
  | .sentry r k v => by simp [Val.bare, equals]
theorem sliceEquals_bares : ∀ es : List (Val A), sliceEquals es (bares es) = true ∧ sliceEquals (bares es) es = true
  | [] => by simp [bares, sliceEquals]
  | e :: es => by
    have h1 := equals_bare e; have h2 := sliceEquals_bares es
    rw [bares, sliceEquals, sliceEquals, h1.1, h1.2, h2.1, h2.2]; exact ⟨rfl, rfl⟩
end

theorem equals_of_bare {x y : Val A} (h : x.bare = y.bare) : equals x y = true :=
  equals_trans (equals_bare x).1 (h ▸ (equals_bare y).2)

mutual
/-- The hash code from the content -/
def cHash (h : A → BitVec 64) : Content A → BitVec 64
  | .atom a => h a
  | .list es => cHashes h 1 es
  | .entry k v => cHash h k ^^^ cHash h v
def cHashes (h : A → BitVec 64) (acc : BitVec 64) : List (Content A) → BitVec 64
  | [] => acc
  | e :: es => cHashes h (acc * 31 + cHash h e) es
end

mutual
theorem hashCode_content (h : A → BitVec 64) : ∀ x : Val A, hashCode h x = cHash h x.content
  | .atom a => by simp [hashCode, Val.content, cHash]
  | .arr f es => by rw [hashCode, Val.content, cHash]; exact hashSlice_contents h 1 es
  | .entry n k v => by rw [hashCode, Val.content, cHash, hashCode_content h k, hashCode_content h v]
  | .sentry r k v => by simp [hashCode, Val.content, cHash]
theorem hashSlice_contents (h : A → BitVec 64) : ∀ (acc : BitVec 64) (es : List (Val A)), hashSlice h acc es = cHashes h acc (contents es)
  | acc, [] => by simp [hashSlice, contents, cHashes]
  | acc, e :: es => by rw [hashSlice, contents, cHashes, hashCode_content h e]; exact hashSlice_contents h _ es
end

mutual
theorem frozenCopy_content : ∀ x : Val A, (frozenCopy x).content = x.content
  | .atom a => by simp [frozenCopy]
  | .arr true es => by simp [frozenCopy]
  | .arr false es => by rw [frozenCopy, Val.content, Val.content, frozenCopies_contents es]
  | .entry n k v => by
    rw [frozenCopy]; split
    · rfl
    · rw [Val.content, Val.content, frozenCopy_content v]
  | .sentry r k v => by simp [frozenCopy, Val.embedded, Val.content]
theorem frozenCopies_contents : ∀ es : List (Val A), contents (frozenCopies es) = contents es
  | [] => by simp [frozenCopies]
  | e :: es => by rw [frozenCopies, contents, contents, frozenCopy_content e, frozenCopies_contents es]
end

mutual
theorem frozenCopy_noStruct : ∀ {x : Val A}, x.NoStruct → (frozenCopy x).NoStruct
  | .atom a, h => by simpa [frozenCopy] using h
  | .arr true es, h => by simpa [frozenCopy] using h
  | .arr false es, h => by rw [frozenCopy, Val.NoStruct]; rw [Val.NoStruct] at h; exact frozenCopies_noStruct h
  | .entry n k v, h => by
    rw [frozenCopy]; split
    · exact h
    · rw [Val.NoStruct] at h ⊢; exact ⟨h.1, frozenCopy_noStruct h.2⟩
  | .sentry r k v, h => by simp [Val.NoStruct] at h
theorem frozenCopies_noStruct : ∀ {es : List (Val A)}, AllNoStruct es → AllNoStruct (frozenCopies es)
  | [], h => by simpa [frozenCopies] using h
  | e :: es, h => by rw [AllNoStruct] at h; rw [frozenCopies, AllNoStruct]; exact ⟨frozenCopy_noStruct h.1, frozenCopies_noStruct h.2⟩
end

mutual
theorem frozenCopy_frozen : ∀ x : Val A, frozen (frozenCopy x) = true
  | .atom a => by simp [frozenCopy, frozen]
  | .arr true es => by simp [frozenCopy, frozen]
  | .arr false es => by simp [frozenCopy, frozen]
  | .entry n k v => by
    rw [frozenCopy]; split
    · assumption
    · rw [frozen]; exact frozenCopy_frozen v
  | .sentry r k v => by simp [frozenCopy, Val.embedded, frozen]
end

mutual
theorem frozenCopy_keys : ∀ {x : Val A}, x.KeysImmutable → (frozenCopy x).KeysImmutable ∧ (frozenCopy x).Immutable
  | .atom a, h => by simp [frozenCopy, Val.Immutable, Val.KeysImmutable]
  | .arr true es, h => by rw [frozenCopy]; rw [Val.KeysImmutable] at h; exact ⟨by rw [Val.KeysImmutable]; exact h, by rw [Val.Immutable]; exact ⟨rfl, h.1 rfl⟩⟩
  | .arr false es, h => by
    rw [Val.KeysImmutable] at h
    have := frozenCopies_keys h.2
    rw [frozenCopy, Val.KeysImmutable, Val.Immutable]; exact ⟨⟨fun _ => this.2, this.1⟩, rfl, this.2⟩
  | .entry n k v, h => by
    rw [Val.KeysImmutable] at h
    have hv := frozenCopy_keys h.2
    rw [frozenCopy]; split
    · rename_i hf
      rw [frozen] at hf
      exact ⟨by rw [Val.KeysImmutable]; exact h, by rw [Val.Immutable]; exact ⟨h.1, frozen_immutable h.2 hf⟩⟩
    · rw [Val.KeysImmutable, Val.Immutable]; exact ⟨⟨h.1, hv.1⟩, h.1, hv.2⟩
  | .sentry r k v, h => by simp [frozenCopy, Val.embedded, Val.Immutable, Val.KeysImmutable]
theorem frozenCopies_keys : ∀ {es : List (Val A)}, AllKeysImmutable es → AllKeysImmutable (frozenCopies es) ∧ AllImmutable (frozenCopies es)
  | [], h => by simp [frozenCopies, AllKeysImmutable, AllImmutable]
  | e :: es, h => by
    rw [AllKeysImmutable] at h
    have h1 := frozenCopy_keys h.1
    have h2 := frozenCopies_keys h.2
    rw [frozenCopies, AllKeysImmutable, AllImmutable]; exact ⟨⟨h1.1, h2.1⟩, h1.2, h2.2⟩
theorem frozen_immutable : ∀ {x : Val A}, x.KeysImmutable → frozen x = true → x.Immutable
  | .atom a, _, _ => by simp [Val.Immutable]
  | .arr f es, h, hf => by rw [frozen] at hf; subst hf; rw [Val.KeysImmutable] at h; rw [Val.Immutable]; exact ⟨rfl, h.1 rfl⟩
  | .entry n k v, h, hf => by rw [frozen] at hf; rw [Val.KeysImmutable] at h; rw [Val.Immutable]; exact ⟨h.1, frozen_immutable h.2 hf⟩
  | .sentry r k v, _, _ => by simp [Val.Immutable]
end

theorem immutable_frozen : ∀ {x : Val A}, x.Immutable → frozen x = true
  | .atom a, _ => by simp [frozen]
  | .arr f es, h => by rw [Val.Immutable] at h; simp [frozen, h.1]
  | .entry n k v, h => by rw [Val.Immutable] at h; rw [frozen]; exact immutable_frozen h.2
  | .sentry r k v, _ => by simp [frozen]

mutual
theorem equals_frozenCopy : ∀ x : Val A, equals (frozenCopy x) x = true
  | .atom a => by simp [frozenCopy, equals]
  | .arr true es => by rw [frozenCopy]; exact equals_refl _
  | .arr false es => by rw [frozenCopy, equals]; exact sliceEquals_frozenCopies es
  | .entry n k v => by
    rw [frozenCopy]; split
    · exact equals_refl _
    · rw [equals, equals_refl k, equals_frozenCopy v]; rfl
  | .sentry r k v => by simp [frozenCopy, Val.embedded, equals]
theorem sliceEquals_frozenCopies : ∀ es : List (Val A), sliceEquals (frozenCopies es) es = true
  | [] => by simp [frozenCopies, sliceEquals]
  | e :: es => by rw [frozenCopies, sliceEquals, equals_frozenCopy e, sliceEquals_frozenCopies es]; rfl
end

theorem frozenCopies_eq (es : List (Val A)) : frozenCopies es = es.map frozenCopy := by
  induction es with
  | nil => simp [frozenCopies]
  | cons e es ih => simp [frozenCopies, ih]

theorem indexOf_found {x : Val A} : ∀ {es : List (Val A)} {i : Int}, 0 ≤ i → (0 ≤ indexOf x i es ↔ ∃ e ∈ es, equals x e = true)
  | [], i, _ => by simp [indexOf]
  | e :: es, i, hi => by
    rw [indexOf]
    split
    · rename_i h; simp [h, hi]
    · rename_i h
      rw [indexOf_found (by omega)]
      simp [h]

/-- The key and value that an entry of a map or a pair stands for -/
def pairOf : Val A → Option (Val A × Val A)
  | .entry true k v => some (k, v)
  | .arr _ [k, v] => some (k, v)
  | _ => none

theorem toMap_cons (e : Val A) (es : List (Val A)) :
    toMapFromEntries (e :: es) = (pairOf e).bind fun p => (toMapFromEntries es).map (p :: ·) := by
  match e with
  | .entry true k v => rw [toMapFromEntries]; rfl
  | .entry false k v => rw [toMapFromEntries] <;> first | rfl | simp
  | .atom a => rw [toMapFromEntries] <;> first | rfl | simp
  | .sentry r k v => rw [toMapFromEntries] <;> first | rfl | simp
  | .arr f [] => rw [toMapFromEntries] <;> first | rfl | simp
  | .arr f [_] => rw [toMapFromEntries] <;> first | rfl | simp
  | .arr f [k, v] => rw [toMapFromEntries]; rfl
  | .arr f (_ :: _ :: _ :: _) => rw [toMapFromEntries] <;> first | rfl | simp

theorem toMap_eq : ∀ es : List (Val A), toMapFromEntries es = es.mapM pairOf
  | [] => by simp [toMapFromEntries]
  | e :: es => by
    rw [toMap_cons, List.mapM_cons, ← toMap_eq es]
    cases pairOf e <;> cases toMapFromEntries es <;> rfl

theorem toMap_keyValue {es : List (Val A)} (h : ∀ e ∈ es, ∃ k v, e = .entry true k v) : toMapFromEntries es = es.mapM Val.keyValue := by
  rw [toMap_eq]
  induction es with
  | nil => rfl
  | cons e es ih =>
    obtain ⟨k, v, rfl⟩ := h e (by simp)
    rw [List.mapM_cons, List.mapM_cons, ih fun e he => h e (by simp [he])]
    rfl

theorem toMap_none {es : List (Val A)} {e : Val A} (he : e ∈ es) (h : pairOf e = none) : toMapFromEntries es = none := by
  rw [toMap_eq]
  induction es with
  | nil => simp at he
  | cons f es ih =>
    rw [List.mapM_cons]
    rcases List.mem_cons.1 he with rfl | he
    · rw [h]; rfl
    · rw [ih he]; cases pairOf f <;> rfl

end Verif.Entry
