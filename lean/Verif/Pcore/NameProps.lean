import Verif.Pcore.NameLemmas
/-!
# C113: names in pcore expressions
-/
set_option autoImplicit false
set_option linter.unusedVariables false
set_option linter.unusedSimpArgs false
namespace Verif.Pcore
open Verif.Value (Str)
open Verif.Text
open Verif.HMap (KeyOps LawfulKey)
open Verif.HMap.Spec (insertAll)
open Verif.Alias

instance : LawfulKey Str where
  refl a := by simp [KeyOps.eq]
  symm a b h := by simp only [KeyOps.eq, beq_iff_eq] at *; exact h.symm
  trans a b c h g := by simp only [KeyOps.eq, beq_iff_eq] at *; exact h.trans g
  hash a b h := by simp only [KeyOps.eq, beq_iff_eq] at h; rw [h]
  frz a := by simp [KeyOps.eq, KeyOps.freeze]

/-! ## Names and their names in dgo -/

/-- **C113, names.**  A token is a name with a text exactly if it is parts that begin with capitals, with `::` between them. -/
theorem C113_tokens (x : Str) : (x ≠ [] ∧ ∃ i i', nextTok i = .ok (⟨x, tName⟩, i')) ↔ IsName x := by
  constructor
  · rintro ⟨hx, i, i', h⟩
    obtain ⟨gap, src, _, _, hl⟩ := (C98_tokens i i' _).1 h
    generalize ht : (⟨x, tName⟩ : Token) = t at hl
    cases hl <;> simp only [Token.mk.injEq] at ht
    case name =>
      rename_i c cs h hs _ hi
      obtain ⟨s0, rest, h1, h2, h3⟩ := tail_segs hs
      refine ⟨(c, s0) :: rest, by simp, ?_, by rw [ht.1, h3 c]⟩
      intro s hs
      rcases List.mem_cons.1 hs with rfl | hs
      · exact ⟨h, h1⟩
      · exact h2 s hs
    case number => rename_i h _; exact absurd ht.2.symm (number_type h)
    case signed => exact absurd ht.2.symm (number_type (by assumption))
    all_goals first | exact absurd ht.1 hx | (exfalso; simp [tName, tString, tRegexp, tRocket, tIdentifier, tEnd] at ht)
  · rintro ⟨segs, h, ho, rfl⟩
    obtain ⟨s, rest, rfl⟩ := List.exists_cons_of_ne_nil h
    obtain ⟨cs, h1, h2⟩ := segs_tail s rest (ho s (by simp)) fun r hr => ho r (List.mem_cons_of_mem _ hr)
    refine ⟨?_, (pcoreName (s :: rest)).map some, [], ?_⟩
    · rw [h1, textOf_cons]; exact fun h => encode_ne_nil s.1 (List.append_eq_nil_iff.1 h).1
    · rw [C98_tokens]
      exact ⟨[], pcoreName (s :: rest), .nil, by simp, by rw [h1]; exact .name (ho s (by simp)).1 h2 (.inl rfl)⟩

/-- `A::B0` -/
example : IsName [65, 58, 58, 66, 48] := ⟨[(65, []), (66, [48])], by simp, by simp [Seg.Ok, NameChar, isUpper, isDigit], by decide +kernel⟩

/-- **C113, the name in dgo.**  In dgo the parts begin with small letters and have dots between them. -/
theorem C113_names {segs : List Seg} (h : segs ≠ []) (ho : ∀ s ∈ segs, s.Ok) : toDgoName (textOf (pcoreName segs)) = some (textOf (dgoName segs)) :=
  toDgoName_name h ho

/-- `A::B0` is `a.b0`. -/
example : toDgoName [65, 58, 58, 66, 48] = some [97, 46, 98, 48] :=
  C113_names (segs := [(65, []), (66, [48])]) (by simp) (by simp [Seg.Ok, NameChar, isUpper, isDigit])

/-- **C113, different names.**  Names that are different have different names in dgo. -/
theorem C113_different {x y : Str} (hx : IsName x) (hy : IsName y) (h : toDgoName x = toDgoName y) : x = y := by
  obtain ⟨a, ha, oa, rfl⟩ := hx
  obtain ⟨b, hb, ob, rfl⟩ := hy
  rw [toDgoName_name ha oa, toDgoName_name hb ob, Option.some.injEq] at h
  rw [textOf_pcore_inj ha hb oa ob h]

/-- `A::B` and `AB`, and `A` and `AA` -/
example : toDgoName [65, 58, 58, 66] ≠ toDgoName [65, 66] ∧ toDgoName [65] ≠ toDgoName [65, 65] := by
  refine ⟨fun h => ?_, fun h => ?_⟩
  · have := C113_different ⟨[(65, []), (66, [])], by simp, by simp [Seg.Ok, isUpper], by decide +kernel⟩
      ⟨[(65, [66])], by simp, by simp [Seg.Ok, NameChar, isUpper, isLetter], by decide +kernel⟩ h
    simp at this
  · have := C113_different ⟨[(65, [])], by simp, by simp [Seg.Ok, isUpper], by decide +kernel⟩
      ⟨[(65, [65])], by simp, by simp [Seg.Ok, NameChar, isUpper, isLetter], by decide +kernel⟩ h
    simp at this

/-- **C113, read by dgo.**  The name in dgo is read as one identifier of the language of types exactly if the name has one part.
The claim is that it always is, and that the identifier is not a word of the language: `C113_keyword_violated`. -/
theorem C113_read_partial {x n : Str} (hx : IsName x) (hn : toDgoName x = some n) {j : In} (hj : Then (fun c _ => isId c = false) j) :
    nextToken (runes n ++ j) = .ok (⟨n, tIdentifier⟩, j) ↔ (58 : UInt8) ∉ x := by
  obtain ⟨segs, h, ho, rfl⟩ := hx
  rw [toDgoName_name h ho, Option.some.injEq] at hn
  subst hn
  obtain ⟨s, rest, rfl⟩ := List.exists_cons_of_ne_nil h
  have hs := ho s (by simp)
  rw [colon_iff ho, runes_text fun c hc => readable_of_lt (dgo_ascii ho c hc)]
  constructor
  · intro hk
    by_cases hr : rest = []
    · exact hr
    · exfalso
      obtain ⟨tl, h1, _, h3⟩ := dgoName_head s rest
      obtain ⟨m, rfl⟩ := h3 hr
      have ht := head_token hs (j := some 46 :: m.map some ++ j) (.inr ⟨46, _, rfl, (by decide : isId 46 = false)⟩)
      rw [h1, List.map_append, List.append_assoc] at hk
      have := hk.symm.trans ht
      simp only [Except.ok.injEq, Prod.mk.injEq] at this
      have := congrArg List.length this.2
      simp at this
      omega
  · rintro rfl
    rw [dgoName_one]
    exact head_token hs hj

/-- `Ab` is the identifier `ab`; `A::B` is `a.b`, which is not an identifier. -/
example : nextToken (runes [97, 98] ++ []) = .ok (⟨[97, 98], tIdentifier⟩, []) ∧ ¬ nextToken (runes [97, 46, 98] ++ []) = .ok (⟨[97, 46, 98], tIdentifier⟩, []) :=
  ⟨(C113_read_partial (x := [65, 98]) ⟨[(65, [98])], by simp, by simp [Seg.Ok, NameChar, isUpper, isLetter, isLower], by decide +kernel⟩ (by decide +kernel) (.inl rfl)).2 (by decide),
   fun h => (C113_read_partial (x := [65, 58, 58, 66]) ⟨[(65, []), (66, [])], by simp, by simp [Seg.Ok, isUpper], by decide +kernel⟩ (by decide +kernel) (.inl rfl)).1 h (by decide)⟩

/-- **C113, no name.**  The character 6 is a token of the type of names without a text, for which making the name in dgo fails with a runtime error. -/
theorem C113_control_violated (i : In) : nextTok (some 6 :: i) = .ok (⟨[], tName⟩, i) ∧ toDgoName [] = none := by
  refine ⟨(C98_tokens _ _ _).2 ⟨[], [6], .nil, by simp, .char (by decide) (by decide)⟩, ?_⟩
  rw [toDgoName, splitColons_nil]; rfl

/-! ## Declarations -/

variable {T : Type} [KeyOps T]

/-- **C113, declarations.**  A text is refused for the names it declares exactly if it declares a name twice, also if one declaration is inside of the
other, or a name that is built in, or one whose name in dgo is that of a named type or that the alias map has. -/
theorem C113_declares (named : Str → Bool) (mk : Str → T) (a : AMap Str T) {ds : List (Decl Str T)} (hds : ∀ x ∈ namesOf ds, IsName x) :
    pdeclareAll named mk a [] ds ≠ none ↔ (namesOf ds).Pairwise (· ≠ ·) ∧
      ∀ x ∈ namesOf ds, x ∉ builtinNames ∧ ∀ n, toDgoName x = some n → named n = false ∧ a.getType n = none := by
  have hsome : ∀ x ∈ namesOf ds, ∃ n, toDgoName x = some n := by
    intro x hx
    obtain ⟨segs, h, ho, rfl⟩ := hds x hx
    exact ⟨_, toDgoName_name h ho⟩
  rw [pdeclareAll_eq]
  have hall : (namesOf ds).all (okName named) = true ↔ ∀ x ∈ namesOf ds, x ∉ builtinNames ∧ ∀ n, toDgoName x = some n → named n = false := by
    rw [List.all_eq_true]
    refine forall_congr' fun x => forall_congr' fun hx => ?_
    obtain ⟨n, hn⟩ := hsome x hx
    simp [okName, hn]
  have hc := C102_accepted mk a (renameAll ds)
  rw [namesOf_rename, List.pairwise_map] at hc
  have hp : (namesOf ds).Pairwise (fun x y => KeyOps.eq ((toDgoName x).getD []) ((toDgoName y).getD []) = false) ↔ (namesOf ds).Pairwise (· ≠ ·) := by
    refine List.Pairwise.iff_of_mem fun {x y} hx hy => ?_
    obtain ⟨n, hn⟩ := hsome x hx
    obtain ⟨m, hm⟩ := hsome y hy
    simp only [KeyOps.eq, hn, hm, Option.getD_some, beq_eq_false_iff_ne, ne_eq]
    refine not_congr ⟨fun h => C113_different (hds x hx) (hds y hy) (by rw [hn, hm, h]), fun h => ?_⟩
    subst h; rw [hn] at hm; exact Option.some.inj hm
  rw [hp] at hc
  by_cases hk : (namesOf ds).all (okName named) = true
  · rw [if_pos hk, hc]
    have hk' := hall.1 hk
    refine and_congr Iff.rfl ⟨fun h x hx => ⟨(hk' x hx).1, fun n hn => ⟨(hk' x hx).2 n hn, ?_⟩⟩, fun h n hn => ?_⟩
    · exact h n (List.mem_map.2 ⟨x, hx, by rw [hn]; rfl⟩)
    · obtain ⟨x, hx, rfl⟩ := List.mem_map.1 hn
      obtain ⟨m, hm⟩ := hsome x hx
      rw [hm]
      exact ((h x hx).2 m hm).2
  · rw [if_neg hk]
    refine ⟨fun h => absurd rfl h, fun h => absurd (hall.2 fun x hx => ⟨(h.2 x hx).1, fun n hn => ((h.2 x hx).2 n hn).1⟩) hk⟩

/-- `type A = type B = …` after `b` was declared, if at all; `type Any = …`; and `a` is a named type -/
example : pdeclareAll (fun _ => false) (fun _ => 0) (.empty : AMap Str Nat) [] [.mk [65] [.mk [66] [] 5] 6] ≠ none ∧
    pdeclareAll (fun _ => false) (fun _ => 0) (⟨[([98], 9)], [(9, [98])]⟩ : AMap Str Nat) [] [.mk [65] [.mk [66] [] 5] 6] = none ∧
    pdeclareAll (fun _ => false) (fun _ => 0) (.empty : AMap Str Nat) [] [.mk [65, 110, 121] [] 6] = none ∧
    pdeclareAll (fun n => n == [97]) (fun _ => 0) (.empty : AMap Str Nat) [] [.mk [65] [] 6] = none := by decide +kernel

/-- **C113, uses.**  Where a text has made its declarations, a name that is not that of a named type is a type that is known exactly if the text
declares that name, or the alias map has its name in dgo. -/
theorem C113_reference (named : Str → Bool) (mk : Str → T) (a : AMap Str T) {ds : List (Decl Str T)} (hds : ∀ x ∈ namesOf ds, IsName x) {adds : List (T × Str)}
    (h : pdeclareAll named mk a [] ds = some adds) {x n : Str} (hx : IsName x) (hn : toDgoName x = some n) (hm : named n = false) :
    (∃ t, reference named a adds x = some (.known t)) ↔ x ∈ namesOf ds ∨ a.getType n ≠ none := by
  rw [pdeclareAll_eq] at h
  split at h
  · have hmem := (declareAll_iff (mk := mk) (a := a) [] (renameAll ds)).2 adds h n
    rw [namesOf_rename] at hmem
    have hx' : x ∈ namesOf ds ↔ n ∈ adds.map (·.2) := by
      rw [hmem]
      simp only [List.map_nil, List.nil_append, List.mem_map]
      constructor
      · exact fun hx => ⟨x, hx, by rw [hn]; rfl⟩
      · rintro ⟨y, hy, hyn⟩
        obtain ⟨segs, h1, ho, rfl⟩ := hds y hy
        rw [toDgoName_name h1 ho, Option.getD_some] at hyn
        rw [C113_different hx ⟨segs, h1, ho, rfl⟩ (by rw [hn, toDgoName_name h1 ho, hyn])]
        exact hy
    have hg := adderGet_isSome a adds n
    rw [hx', ← Option.isSome_iff_ne_none, reference, hn]
    simp only [hm, Bool.false_eq_true, if_false]
    have : (n ∈ adds.map (·.2)) ↔ ∃ e ∈ adds, KeyOps.eq n e.2 = true := by
      simp only [List.mem_map, KeyOps.eq, beq_iff_eq]
      exact ⟨fun ⟨e, h1, h2⟩ => ⟨e, h1, h2.symm⟩, fun ⟨e, h1, h2⟩ => ⟨e, h1, h2.symm⟩⟩
    rw [this, ← hg]
    cases adderGet a (insertAll [] (adds.map fun e => (e.2, e.1))) n with
    | none => simp
    | some t => simp
  · cases h

/-- After `type A = type B = …`, `B` is known and `C` is not. -/
example : (pdeclareAll (fun _ => false) (fun _ => 0) (.empty : AMap Str Nat) [] [.mk [65] [.mk [66] [] 5] 6]).bind (fun adds => reference (fun _ => false) .empty adds [66]) = some (.known 5) ∧
    (pdeclareAll (fun _ => false) (fun _ => 0) (.empty : AMap Str Nat) [] [.mk [65] [.mk [66] [] 5] 6]).bind (fun adds => reference (fun _ => false) .empty adds [67]) = some (.alias_ [99]) := by
  decide +kernel

/-- Where the language of types has the name for a type of its own, the names differ: `type Int = String` is accepted, its name in dgo is `int`, and that
is read as the type of integers. -/
theorem C113_keyword_violated (named : Str → Bool) (mk : Str → T) (a : AMap Str T) (t : T) (hn : named (w ['i', 'n', 't']) = false) (ha : a.getType (w ['i', 'n', 't']) = none)
    (E : PEnv) (te : Sub) (ts : List Token) :
    pdeclareAll named mk a [] [.mk (w ['I', 'n', 't']) [] t] = some [(mk (w ['i', 'n', 't']), w ['i', 'n', 't']), (t, w ['i', 'n', 't'])] ∧
    pIdentifier E te ⟨w ['i', 'n', 't'], tIdentifier⟩ ts = .ok (.ty .intT, ts) := by
  have h1 : toDgoName (w ['I', 'n', 't']) = some (w ['i', 'n', 't']) := by decide +kernel
  have h2 : builtinNames.contains (w ['I', 'n', 't']) = false := by decide +kernel
  refine ⟨?_, ?_⟩
  · have h3 : (adderGet a (insertAll [] (([] : List (T × Str)).map fun e => (e.2, e.1))) (w ['i', 'n', 't'])).isSome = false := by
      cases h : (adderGet a (insertAll [] (([] : List (T × Str)).map fun e => (e.2, e.1))) (w ['i', 'n', 't'])).isSome
      · rfl
      · rcases (adderGet_isSome a [] _).1 h with ⟨e, he, _⟩ | h
        · cases he
        · rw [ha] at h; cases h
    rw [pdeclareAll, pdeclare, h1, h2]
    simp only [hn, h3, Bool.false_eq_true, if_false]
    rw [pdeclareAll]
    simp only [Option.map_some, Option.bind_some]
    rw [pdeclareAll]; rfl
  · unfold pIdentifier
    simp [w]

end Verif.Pcore
