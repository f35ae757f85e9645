import Verif.Alias.Props
/-!
# C102: which texts are refused for what they declare
-/
set_option autoImplicit false
set_option linter.unusedSectionVars false
namespace Verif.Alias
open Verif.HMap Verif.HMap.Spec

variable {N T : Type} [KeyOps N] [KeyOps T]

local instance (priority := low) anyValue {V : Type} : ValOps V := ⟨fun _ _ => false, fun _ => false, id, id⟩

theorem adderGet_isSome [LawfulKey N] (a : AMap N T) (adds : List (T × N)) (n : N) :
    (adderGet a (insertAll [] (adds.map fun e => (e.2, e.1))) n).isSome = true ↔ (∃ e ∈ adds, KeyOps.eq n e.2 = true) ∨ (a.getType n).isSome = true := by
  unfold adderGet
  rw [Option.isSome_or, lookup_insertAll_last, lookup_nil, Option.or_none, Bool.or_eq_true, lookup_isSome, List.any_eq_true]
  constructor
  · rintro (⟨e, he, h⟩ | h)
    · simp only [List.mem_reverse, List.mem_map] at he
      obtain ⟨x, hx, rfl⟩ := he
      exact .inl ⟨x, hx, h⟩
    · exact .inr h
  · rintro (⟨e, he, h⟩ | h)
    · exact .inl ⟨(e.2, e.1), by simp only [List.mem_reverse, List.mem_map]; exact ⟨e, he, rfl⟩, h⟩
    · exact .inr h

/-- The names `ns` can be declared after `S`. -/
def CanDeclare (a : AMap N T) (S ns : List N) : Prop :=
  ns.Pairwise (fun n m => KeyOps.eq n m = false) ∧ ∀ n ∈ ns, (∀ m ∈ S, KeyOps.eq n m = false) ∧ a.getType n = none

theorem CanDeclare.append [LawfulKey N] {a : AMap N T} {S x y : List N} :
    CanDeclare a S (x ++ y) ↔ CanDeclare a S x ∧ CanDeclare a (S ++ x) y := by
  unfold CanDeclare
  rw [List.pairwise_append]
  constructor
  · rintro ⟨⟨h1, h2, h3⟩, h4⟩
    refine ⟨⟨h1, fun n hn => h4 n (List.mem_append_left _ hn)⟩, h2, fun n hn => ⟨fun m hm => ?_, (h4 n (List.mem_append_right _ hn)).2⟩⟩
    rcases List.mem_append.1 hm with hm | hm
    · exact (h4 n (List.mem_append_right _ hn)).1 m hm
    · rw [LawfulKey.comm]; exact h3 m hm n hn
  · rintro ⟨⟨h1, h2⟩, h3, h4⟩
    refine ⟨⟨h1, h3, fun m hm n hn => ?_⟩, fun n hn => ?_⟩
    · rw [LawfulKey.comm]; exact (h4 n hn).1 m (List.mem_append_right _ hm)
    · rcases List.mem_append.1 hn with hn | hn
      · exact h2 n hn
      · exact ⟨fun m hm => (h4 n hn).1 m (List.mem_append_left _ hm), (h4 n hn).2⟩

theorem CanDeclare.congr {a : AMap N T} {S S' ns : List N} (h : ∀ n, n ∈ S ↔ n ∈ S') : CanDeclare a S ns ↔ CanDeclare a S' ns := by
  unfold CanDeclare
  refine and_congr Iff.rfl (forall_congr' fun n => forall_congr' fun _ => and_congr ?_ Iff.rfl)
  exact forall_congr' fun m => by rw [h m]

mutual
theorem declare_iff [LawfulKey N] {mk : N → T} {a : AMap N T} : ∀ (adds : List (T × N)) (d : Decl N T),
    ((declare mk a adds d).isSome = true ↔ CanDeclare a (adds.map (·.2)) d.names) ∧
    ∀ r, declare mk a adds d = some r → ∀ n, n ∈ r.map (·.2) ↔ n ∈ adds.map (·.2) ++ d.names
  | adds, .mk n inner t => by
    obtain ⟨h1, h2⟩ := declareAll_iff (mk := mk) (a := a) (adds ++ [(mk n, n)]) inner
    have hone : CanDeclare a (adds.map (·.2)) [n] ↔ ¬ (adderGet a (insertAll [] (adds.map fun e => (e.2, e.1))) n).isSome = true := by
      rw [adderGet_isSome]
      unfold CanDeclare
      simp only [List.pairwise_singleton, true_and, List.mem_singleton, forall_eq, List.mem_map, not_or, not_exists, not_and, Bool.not_eq_true,
        Option.isSome_eq_false_iff, Option.isNone_iff_eq_none]
      exact and_congr ⟨fun h e he => h e.2 ⟨e, he, rfl⟩, fun h m hm => by obtain ⟨e, he, rfl⟩ := hm; exact h e he⟩ Iff.rfl
    rw [declare, Decl.names, show n :: namesOf inner = [n] ++ namesOf inner from rfl, CanDeclare.append, hone]
    split
    · rename_i h
      exact ⟨by simp [h], fun r hr => by cases hr⟩
    · rename_i h
      simp only [h, Option.isSome_map, h1, List.map_append, List.map_cons, List.map_nil]
      refine ⟨by simp, fun r hr => ?_⟩
      obtain ⟨x, hx, rfl⟩ := Option.map_eq_some_iff.1 hr
      intro m
      have := h2 x hx m
      simp only [List.map_append, List.map_cons, List.map_nil, List.mem_append, List.mem_singleton] at this ⊢
      rw [this]
      constructor
      · rintro (((h | h) | h) | h)
        · exact .inl h
        · exact .inr (.inl h)
        · exact .inr (.inr h)
        · exact .inr (.inl h)
      · rintro (h | h | h)
        · exact .inl (.inl (.inl h))
        · exact .inr h
        · exact .inl (.inr h)
theorem declareAll_iff [LawfulKey N] {mk : N → T} {a : AMap N T} : ∀ (adds : List (T × N)) (ds : List (Decl N T)),
    ((declareAll mk a adds ds).isSome = true ↔ CanDeclare a (adds.map (·.2)) (namesOf ds)) ∧
    ∀ r, declareAll mk a adds ds = some r → ∀ n, n ∈ r.map (·.2) ↔ n ∈ adds.map (·.2) ++ namesOf ds
  | adds, [] => by
    rw [declareAll, namesOf]
    refine ⟨by simp [CanDeclare], fun r hr => ?_⟩
    cases hr
    simp
  | adds, d :: ds => by
    obtain ⟨h1, h2⟩ := declare_iff (mk := mk) (a := a) adds d
    rw [declareAll, namesOf, CanDeclare.append, ← h1]
    cases hd : declare mk a adds d with
    | none => exact ⟨by simp, fun r hr => by cases hr⟩
    | some x =>
      obtain ⟨h3, h4⟩ := declareAll_iff (mk := mk) (a := a) x ds
      simp only [Option.bind_some, Option.isSome_some, true_and]
      refine ⟨by rw [h3]; exact CanDeclare.congr (h2 x hd), fun r hr n => ?_⟩
      rw [h4 r hr n, List.mem_append, h2 x hd n]
      simp only [List.mem_append, or_assoc]
end

/-- **C102.**  A text is refused for what it declares exactly if it declares a name twice, also if one declaration is inside of the other, or a name that
the map has. -/
theorem C102_accepted [LawfulKey N] (mk : N → T) (a : AMap N T) (ds : List (Decl N T)) :
    declareAll mk a [] ds ≠ none ↔ (namesOf ds).Pairwise (fun n m => KeyOps.eq n m = false) ∧ ∀ n ∈ namesOf ds, a.getType n = none := by
  rw [← Option.isSome_iff_ne_none, (declareAll_iff [] ds).1]
  simp [CanDeclare]

/-- `a={b=…}` after a text with `c`, and `a={a=…}` -/
example : declareAll (fun _ => 0) (⟨[("c", 9)], [(9, "c")]⟩ : AMap String Nat) [] [.mk "a" [.mk "b" [] 5] 6] ≠ none ∧
    declareAll (fun _ => 0) (⟨[("c", 9)], [(9, "c")]⟩ : AMap String Nat) [] [.mk "a" [.mk "a" [] 5] 6] = none ∧
    declareAll (fun _ => 0) (⟨[("c", 9)], [(9, "c")]⟩ : AMap String Nat) [] [.mk "a" [.mk "c" [] 5] 6] = none := by decide +kernel

end Verif.Alias
