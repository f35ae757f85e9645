import Verif.Alias.DeclareProps
/-!
# The type `dgo`, whose instances are the texts that can be parsed

`defaultDgoStringType`: internal/string.go:97-125.  It calls `Parse` (parser/parser.go:132-137), which adds the types that the text declares to the default
aliases.

Texts are any type `S`.  What the lexer and the grammar make of a text is `read`: `none` if it is refused whatever names are known (Verif/Text has that),
otherwise the declarations in it and the value; the empty text is refused as well (internal/string.go:112).  Names of named types are left out.
-/
set_option autoImplicit false
set_option linter.unusedSectionVars false
namespace Verif.Alias
open Verif.HMap Verif.HMap.Spec

variable {S N T : Type} [KeyOps N] [KeyOps T]

/-- The declarations of a text and its value, in which the names that were not known are aliases -/
structure Src (N T : Type) where
  decls : List (Decl N T)
  value : T

/-- `Parse`: parser/parser.go:132-137, 147-176, and `AddAliases`: alias.go:51-59; `none`: it panics.  The map is what the default aliases are afterwards. -/
def parse (R : Replace N T) (mk : N → T) (a : AMap N T) (s : Src N T) : Option (T × AMap N T) :=
  (declareAll mk a [] s.decls).bind fun adds =>
    (R (adderGet a (insertAll [] (adds.map fun e => (e.2, e.1)))) s.value).bind fun v =>
      (collect R a adds).map fun a' => (v, a')

/-- `Instance` of the type `dgo`: internal/string.go:107-125, and `Assignable` for the exact type of a text: internal/string.go:97-105.  The answer, and what
the default aliases are afterwards; a panic is an answer of false. -/
def dgoInstance (read : S → Option (Src N T)) (R : Replace N T) (mk : N → T) (a : AMap N T) (s : S) : Bool × AMap N T :=
  match (read s).bind (parse R mk a) with
  | none => (false, a)
  | some (_, a') => (true, a')

/-- The default aliases after these questions -/
def asked (read : S → Option (Src N T)) (R : Replace N T) (mk : N → T) (a : AMap N T) : List S → AMap N T
  | [] => a
  | s :: ss => asked read R mk (dgoInstance read R mk a s).2 ss

/-! ## Lemmas -/

local instance (priority := low) anyValD {V : Type} : ValOps V := ⟨fun _ _ => false, fun _ => false, id, id⟩

theorem collect_isSome [LawfulKey N] {R : Replace N T} {a a' : AMap N T} {adds : List (T × N)} (h : collect R a adds = some a') (n : N) :
    (a'.getType n).isSome = true ↔ (∃ e ∈ adds, KeyOps.eq n e.2 = true) ∨ (a.getType n).isSome = true := by
  obtain ⟨rs, hd, hl, hs, rfl⟩ := collect_cases h
  show (lookup n (insertAll a.namedTypes rs)).isSome = true ↔ _
  rw [lookup_insertAll_last, Option.isSome_or, Bool.or_eq_true]
  refine or_congr ?_ Iff.rfl
  have h1 : (lookup n rs.reverse).isSome = (lookup n rs).isSome := by rw [lookup_isSome, lookup_isSome, List.any_reverse]
  rw [h1, hl n]
  have h2 : ((lookup n (adds.map fun e => (e.2, e.1)).reverse).bind (R (adderGet a (insertAll [] (adds.map fun e => (e.2, e.1)))))).isSome =
      (lookup n (adds.map fun e => (e.2, e.1)).reverse).isSome := by
    cases hx : lookup n (adds.map fun e => (e.2, e.1)).reverse with
    | none => rfl
    | some t => simpa using hs n t hx
  rw [h2, lookup_isSome, List.any_reverse, List.any_map, List.any_eq_true]
  rfl

theorem dgoInstance_true {read : S → Option (Src N T)} {R : Replace N T} {mk : N → T} {a a' : AMap N T} {s : S}
    (h : dgoInstance read R mk a s = (true, a')) :
    ∃ src adds, read s = some src ∧ declareAll mk a [] src.decls = some adds ∧
      (R (adderGet a (insertAll [] (adds.map fun e => (e.2, e.1)))) src.value).isSome = true ∧ collect R a adds = some a' := by
  unfold dgoInstance at h
  split at h
  · cases h
  · rename_i v b hb
    cases h
    obtain ⟨src, h1, h2⟩ := Option.bind_eq_some_iff.1 hb
    obtain ⟨adds, h3, h4⟩ := Option.bind_eq_some_iff.1 h2
    obtain ⟨v', h5, h6⟩ := Option.bind_eq_some_iff.1 h4
    obtain ⟨a2, h7, h8⟩ := Option.map_eq_some_iff.1 h6
    cases h8
    exact ⟨src, adds, h1, h3, by rw [h5]; rfl, h7⟩

theorem dgoInstance_known [LawfulKey N] {read : S → Option (Src N T)} {R : Replace N T} {mk : N → T} {a a' : AMap N T} {s : S} {src : Src N T}
    (hs : read s = some src) (h : dgoInstance read R mk a s = (true, a')) (n : N) :
    (a'.getType n).isSome = true ↔ (∃ m ∈ namesOf src.decls, KeyOps.eq n m = true) ∨ (a.getType n).isSome = true := by
  obtain ⟨src', adds, h1, h2, _, h4⟩ := dgoInstance_true h
  rw [hs] at h1; cases h1
  rw [collect_isSome h4]
  refine or_congr ⟨?_, ?_⟩ Iff.rfl
  · rintro ⟨e, he, h⟩
    have := ((declareAll_iff [] src.decls).2 adds h2 e.2).1 (List.mem_map_of_mem he)
    exact ⟨e.2, by simpa using this, h⟩
  · rintro ⟨m, hm, h⟩
    have := ((declareAll_iff [] src.decls).2 adds h2 m).2 (by simpa using hm)
    obtain ⟨e, he, rfl⟩ := List.mem_map.1 this
    exact ⟨e, he, h⟩

theorem dgoInstance_grows [LawfulKey N] {read : S → Option (Src N T)} {R : Replace N T} {mk : N → T} {a : AMap N T} (s : S) {n : N}
    (h : (a.getType n).isSome = true) : ((dgoInstance read R mk a s).2.getType n).isSome = true := by
  cases hd : dgoInstance read R mk a s with
  | mk b a' =>
    cases b with
    | false =>
      unfold dgoInstance at hd
      split at hd <;> cases hd
      exact h
    | true =>
      obtain ⟨src, adds, h1, _⟩ := dgoInstance_true hd
      exact (dgoInstance_known h1 hd n).2 (.inr h)

theorem dgoInstance_plain {read : S → Option (Src N T)} {R : Replace N T} {mk : N → T} {a : AMap N T} {s : S} {src : Src N T}
    (hs : read s = some src) (hd : src.decls = []) : dgoInstance read R mk a s = ((R a.getType src.value).isSome, a) := by
  have e : adderGet a (insertAll [] (([] : List (T × N)).map fun e => (e.2, e.1))) = a.getType := by
    funext n
    simp [adderGet, insertAll, lookup_nil]
  unfold dgoInstance
  rw [hs]
  simp only [Option.bind_some, parse, hd, declareAll, e]
  cases R a.getType src.value with
  | none => rfl
  | some v => rfl

/-! ## Theorems -/

/-- **C116.**  A text that is refused, and one that declares nothing, leave the default aliases as they are; so what is asked next gets the answer that it would have
got without that question. -/
theorem C116_asked_partial (read : S → Option (Src N T)) (R : Replace N T) (mk : N → T) (a : AMap N T) (s : S)
    (h : (dgoInstance read R mk a s).1 = false ∨ ∀ src, read s = some src → src.decls = []) :
    (dgoInstance read R mk a s).2 = a ∧ ∀ s', dgoInstance read R mk (dgoInstance read R mk a s).2 s' = dgoInstance read R mk a s' := by
  have : (dgoInstance read R mk a s).2 = a := by
    cases hr : read s with
    | none => simp [dgoInstance, hr]
    | some src =>
      rcases h with h | h
      · unfold dgoInstance at h ⊢
        split
        · rfl
        · rename_i hb; rw [hb] at h; cases h
      · rw [dgoInstance_plain hr (h src hr)]
  exact ⟨this, fun s' => by rw [this]⟩

namespace DgoEx
open Ex
instance : LawfulKey Nat where
  refl a := by simp [KeyOps.eq]
  symm a b h := by simp only [KeyOps.eq, beq_iff_eq] at *; exact h.symm
  trans a b c h g := by simp only [KeyOps.eq, beq_iff_eq] at *; exact h.trans g
  hash a b h := by simp only [KeyOps.eq, beq_iff_eq] at h; rw [h]
  frz a := by simp [KeyOps.eq, KeyOps.freeze]
/-- The texts `string`, `a`, `a=string` and one that is no expression; types are as in `Ex.R`. -/
def read : Nat → Option (Src String Nat)
  | 0 => some ⟨[], 7⟩
  | 1 => some ⟨[], 0⟩
  | 2 => some ⟨[.mk "a" [] 7], 7⟩
  | _ => none
def ask := dgoInstance read Ex.R (fun _ => 0)
end DgoEx

example : (DgoEx.ask .empty 3).1 = false ∧ (DgoEx.ask .empty 0).1 = true ∧ (DgoEx.ask .empty 1).1 = false := by decide +kernel

/-- **The claim is false**: every text with a declaration that is an instance is no instance when it is asked for again, nor is any other text with a
declaration of one of its names, then and after all further questions. -/
theorem C116_twice_violated [LawfulKey N] {read : S → Option (Src N T)} {R : Replace N T} {mk : N → T} {a a' : AMap N T} {s : S} {src : Src N T}
    (hs : read s = some src) (h : dgoInstance read R mk a s = (true, a')) (between : List S) {n : N} (hn : n ∈ namesOf src.decls) {s' : S}
    {src' : Src N T} (hs' : read s' = some src') (hn' : n ∈ namesOf src'.decls) :
    (dgoInstance read R mk (asked read R mk a' between) s').1 = false := by
  have h1 : (a'.getType n).isSome = true := (dgoInstance_known hs h n).2 (.inl ⟨n, hn, LawfulKey.refl n⟩)
  have h2 : ∀ (ss : List S) (a : AMap N T), (a.getType n).isSome = true → ((asked read R mk a ss).getType n).isSome = true := by
    intro ss
    induction ss with
    | nil => exact fun _ h => h
    | cons x xs ih => exact fun a h => ih _ (dgoInstance_grows x h)
  have h3 := h2 between a' h1
  cases hd : dgoInstance read R mk (asked read R mk a' between) s' with
  | mk b c =>
    cases b with
    | false => rfl
    | true =>
      obtain ⟨src2, adds, e1, e2, _⟩ := dgoInstance_true hd
      rw [hs'] at e1; cases e1
      have := (C102_accepted mk (asked read R mk a' between) src'.decls).1 (by rw [e2]; simp)
      rw [this.2 n hn'] at h3
      cases h3

/-- `typ.DgoString.Instance("a=string")` twice -/
example : (DgoEx.ask .empty 2).1 = true ∧ (DgoEx.ask (DgoEx.ask .empty 2).2 2).1 = false ∧ "a" ∈ namesOf ((DgoEx.read 2).map Src.decls |>.getD []) := by
  decide +kernel

/-- **The claim is false** in the other direction as well: a text that is refused, because it has a name that is not known, is an instance after some text has been
asked for that declares the name.  `refs` are the names in a value, of which `Replace` needs all. -/
theorem C116_unknown_violated [LawfulKey N] {read : S → Option (Src N T)} {R : Replace N T} {mk : N → T} {refs : T → List N}
    (hR : ∀ get t, (R get t).isSome = true ↔ ∀ n ∈ refs t, (get n).isSome = true) {a a' : AMap N T} {s : S} {src : Src N T}
    (hs : read s = some src) (h : dgoInstance read R mk a s = (true, a')) {s' : S} {v : T} (hs' : read s' = some ⟨[], v⟩) {n : N} (hn : n ∈ refs v)
    (hd : n ∈ namesOf src.decls) (ho : ∀ m ∈ refs v, m ∈ namesOf src.decls ∨ (a.getType m).isSome = true) :
    (dgoInstance read R mk a s').1 = false ∧ (dgoInstance read R mk a' s').1 = true := by
  rw [dgoInstance_plain hs' rfl, dgoInstance_plain hs' rfl]
  constructor
  · rw [← Bool.not_eq_true, hR]
    intro hall
    obtain ⟨src2, adds, e1, e2, _⟩ := dgoInstance_true h
    rw [hs] at e1; cases e1
    have := (C102_accepted mk a src.decls).1 (by rw [e2]; simp)
    have h3 := hall n hn
    rw [this.2 n hd] at h3
    cases h3
  · rw [hR]
    intro m hm
    refine (dgoInstance_known hs h m).2 ?_
    rcases ho m hm with h | h
    · exact .inl ⟨m, h, LawfulKey.refl m⟩
    · exact .inr h

example : (DgoEx.ask .empty 1).1 = false ∧ (DgoEx.ask (DgoEx.ask .empty 2).2 1).1 = true := by decide +kernel

/-- **C116, what stays**: a text without declarations that is an instance is one after all further questions. -/
theorem C116_stays [LawfulKey N] {read : S → Option (Src N T)} {R : Replace N T} {mk : N → T} {refs : T → List N}
    (hR : ∀ get t, (R get t).isSome = true ↔ ∀ n ∈ refs t, (get n).isSome = true) {a : AMap N T} {s : S} {v : T} (hs : read s = some ⟨[], v⟩)
    (h : (dgoInstance read R mk a s).1 = true) (between : List S) : (dgoInstance read R mk (asked read R mk a between) s).1 = true := by
  rw [dgoInstance_plain hs rfl] at h ⊢
  simp only [hR] at h ⊢
  have h2 : ∀ (ss : List S) (a : AMap N T), (∀ n ∈ refs v, (a.getType n).isSome = true) →
      ∀ n ∈ refs v, ((asked read R mk a ss).getType n).isSome = true := by
    intro ss
    induction ss with
    | nil => exact fun _ h => h
    | cons x xs ih => exact fun a h => ih _ fun n hn => dgoInstance_grows x (h n hn)
  exact h2 between a h

example : (DgoEx.ask (asked DgoEx.read Ex.R (fun _ => 0) .empty [2, 0, 3]) 1).1 = true ∧
    (∀ get (t : Nat), (Ex.R get t).isSome = true ↔ if t = 0 then (get "a").isSome = true else t ≠ 1) := by
  refine ⟨by decide +kernel, fun get t => ?_⟩
  unfold Ex.R
  by_cases h : t = 0
  · simp [h]
  · by_cases h1 : t = 1 <;> simp [h, h1]

/-- **What is asked for is kept**: the default aliases have all names that were declared in texts that were instances, and no others than before. -/
theorem C116_known [LawfulKey N] {read : S → Option (Src N T)} {R : Replace N T} {mk : N → T} {a a' : AMap N T} {s : S} {src : Src N T}
    (hs : read s = some src) (h : dgoInstance read R mk a s = (true, a')) (n : N) :
    (a'.getType n).isSome = true ↔ (∃ m ∈ namesOf src.decls, KeyOps.eq n m = true) ∨ (a.getType n).isSome = true := dgoInstance_known hs h n

example : ((DgoEx.ask .empty 2).2.getType "a") = some 7 ∧ ((DgoEx.ask .empty 2).2.getType "b") = none := by decide +kernel

end Verif.Alias
