import Verif.Types.KindSpec
import Verif.Types.AssignFuel
import Verif.Types.InstHas
import Verif.Types.CompleteProps
/-!
# C127: which types the type of a kind is assignable from
-/
set_option autoImplicit false
set_option linter.unusedSimpArgs false
set_option linter.unusedTactic false
set_option linter.unreachableTactic false
namespace Verif.Types
open Verif.Value

variable {E : Env}

theorem allO_all {α : Type} {f : α → Option Bool} : ∀ {xs : List α}, (∀ x ∈ xs, f x ≠ none) →
    ∃ r, allO f xs = some r ∧ (r = true ↔ ∀ x ∈ xs, f x = some true)
  | [], _ => ⟨true, rfl, by simp⟩
  | x :: xs, h => by
    obtain ⟨r, h1, h2⟩ := allO_all fun y hy => h y (List.mem_cons_of_mem _ hy)
    have hx := h x List.mem_cons_self
    rw [allO]
    cases hc : f x with
    | none => exact absurd hc hx
    | some b =>
      cases b with
      | false => exact ⟨false, rfl, by simp [hc]⟩
      | true => exact ⟨r, h1, by simp [hc, h2]⟩

theorem MadeOf.operands {P : Ty → Bool} {b : Ty} {ts : List Ty} {ne : Bool} (h : b.operands? = some (ts, ne)) (hP : P b = false) :
    MadeOf P b ↔ (∀ t ∈ ts, MadeOf P t) ∧ (ne = true → ts ≠ []) := by
  constructor
  · intro hm
    cases hm with
    | one h1 => rw [hP] at h1; cases h1
    | anyOf h1 h2 => cases h; exact ⟨h2, fun _ => h1⟩
    | oneOf h1 h2 => cases h; exact ⟨h2, fun _ => h1⟩
    | allOf h2 => cases h; exact ⟨h2, fun h => by cases h⟩
    | allOfVal h2 => cases h; exact ⟨h2, fun h => by cases h⟩
  · rintro ⟨h1, h2⟩
    cases b with
    | anyOf o us => cases h; exact .anyOf (h2 rfl) h1
    | oneOf o us => cases h; exact .oneOf (h2 rfl) h1
    | allOf o us => cases h; exact .allOf h1
    | allOfVal o vs => cases h; exact .allOfVal h1
    | _ => cases h

/-- A type without parts that looks at plain types with `P` and leaves combinations to `CheckAssignableTo` -/
theorem asg_madeOf {P : Ty → Bool} {a : Ty} (hd : a.deep? = none) (hn : ∀ t, a ≠ .not t)
    (h1 : ∀ eqT b, b.operands? = none → (leafCase E eqT a b).getD false = P b)
    (h2 : ∀ eqT b, b.operands? ≠ none → leafCase E eqT a b = none ∧ P b = false) :
    ∀ (n : Nat) (b : Ty), a.depth + b.depth < n → (asg E n none a b = some (true, none) ↔ MadeOf P b)
  | 0, _, h => absurd h (Nat.not_lt_zero _)
  | n + 1, b, h => by
    rw [asg, hd]
    dsimp only
    have hl : ∀ rec eqT, leafAsg E eqT rec a b = match leafCase E eqT a b with
        | some r => some r
        | none => match b.operands? with
          | none => some false
          | some (ts, ne) => (allO (fun t => rec a t) ts).map fun r => r && !(ne && ts.isEmpty) := by
      intro rec eqT
      unfold leafAsg
      split
      · exact absurd rfl (hn _)
      · rfl
    rw [hl]
    cases ho : b.operands? with
    | none =>
      have h3 := h1 (tyEq n []) b ho
      have h4 : MadeOf P b ↔ P b = true := by
        refine ⟨fun hm => ?_, .one⟩
        cases hm
        case one h => exact h
        all_goals cases ho
      rw [h4, ← h3]
      cases leafCase E (tyEq n []) a b <;> simp
    | some x =>
      obtain ⟨ts, ne⟩ := x
      obtain ⟨h3, h4⟩ := h2 (tyEq n []) b (by rw [ho]; simp)
      rw [h3, MadeOf.operands ho h4]
      dsimp only
      have hk : ∀ t ∈ ts, a.depth + t.depth < n := fun t ht => by have := operands_depth ho t ht; omega
      obtain ⟨r, h5, h6⟩ := allO_all (f := fun t => (asg E n none a t).map (·.1)) (xs := ts) (by
        intro t ht
        obtain ⟨r, hr⟩ := asg_total (E := E) (g := none) (hk t ht)
        simp [hr])
      rw [h5]
      have h7 : (∀ t ∈ ts, MadeOf P t) ↔ r = true := by
        rw [h6]
        refine forall_congr' fun t => imp_congr_right fun ht => ?_
        rw [← asg_madeOf hd hn h1 h2 n t (hk t ht)]
        have hg : ∀ r g, asg E n none a t = some (r, g) → g = none := by
          intro r g hr
          cases n with
          | zero => cases hr
          | succ n =>
            rw [asg, hd] at hr
            obtain ⟨_, _, h⟩ := Option.map_eq_some_iff.1 hr
            cases h; rfl
        obtain ⟨⟨x, g⟩, hr⟩ := asg_total (E := E) (g := none) (hk t ht)
        cases hg x g hr
        simp [hr]
      rw [h7]
      cases ts <;> cases ne <;> simp

theorem assignable_madeOf {P : Ty → Bool} {a : Ty} (hd : a.deep? = none) (hn : ∀ t, a ≠ .not t)
    (h1 : ∀ eqT b, b.operands? = none → (leafCase E eqT a b).getD false = P b)
    (h2 : ∀ eqT b, b.operands? ≠ none → leafCase E eqT a b = none ∧ P b = false) (b : Ty) : assignable E a b = true ↔ MadeOf P b := by
  rw [assignable_iff (Nat.lt_succ_self _), ← asg_madeOf hd hn h1 h2 _ b (Nat.lt_succ_self _)]
  constructor
  · rintro ⟨g, h⟩
    have : g = none := by
      rw [asg, hd] at h
      obtain ⟨_, _, h⟩ := Option.map_eq_some_iff.1 h
      cases h; rfl
    rw [this] at h; exact h
  · exact fun h => ⟨_, h⟩

/-- **C127.**  The type of a kind is assignable from exactly the types made of types of that kind: `string` from every pattern, every string, every length,
and every combination of such, however deep; `int` from every range; and so on, for all types.  (`binary` is `C127_binaries`, `float` is `C127_float`.) -/
theorem C127_kinds (k : Kind) (b : Ty) : assignable E k.type b = true ↔ MadeOf k.of b := by
  cases k
  all_goals
    refine assignable_madeOf rfl (fun t h => by cases h) (fun eqT b ho => ?_) (fun eqT b ho => ?_) b
  all_goals cases b
  all_goals first
    | (exact absurd rfl ho)
    | (cases ho; done)
    | rfl
    | exact ⟨rfl, rfl⟩
    | (rename_i v; cases v <;> rfl)

/-- A type of strings with lengths within bounds is assignable from exactly the types made of such types. -/
theorem C127_lengths (lo hi : Int) (b : Ty) : assignable E (.sizedStr lo hi) b = true ↔ MadeOf (within lo hi) b := by
  refine assignable_madeOf rfl (fun t h => by cases h) (fun eqT b ho => ?_) (fun eqT b ho => ?_) b
  all_goals cases b
  all_goals first
    | (exact absurd rfl ho)
    | (cases ho; done)
    | rfl
    | exact ⟨rfl, rfl⟩
    | (rename_i v; cases v <;> rfl)

/-- A type of binaries is assignable from exactly the types made of types of binaries with sizes within its own; `binary` has the sizes from 0. -/
theorem C127_binaries (lo hi : Int) (b : Ty) : assignable E (.bin lo hi) b = true ↔ MadeOf (binWithin lo hi) b := by
  refine assignable_madeOf rfl (fun t h => by cases h) (fun eqT b ho => ?_) (fun eqT b ho => ?_) b
  all_goals cases b
  all_goals first
    | (exact absurd rfl ho)
    | (cases ho; done)
    | rfl
    | exact ⟨rfl, rfl⟩
    | (rename_i v; cases v <;> rfl)

/-- `float` is assignable from floats and their ranges and from no combination of types. -/
theorem C127_float (b : Ty) : assignable E .floatT b = true ↔ b = .floatT ∨ (∃ f, b = .exact (.float f)) ∨ ∃ lo hi incl, b = .floatRange lo hi incl := by
  have h1 : ∀ eqT, leafCase E eqT .floatT b = some (match b with | .floatT | .exact (.float _) | .floatRange .. => true | _ => false) := by
    intro eqT
    cases b <;> first | rfl | (rename_i v; cases v <;> rfl)
  rw [assignable_iff (Nat.lt_succ_self _), asg]
  simp only [Ty.deep?, leafAsg, h1, Option.map_some, Option.some.injEq, Prod.mk.injEq, exists_eq_right']
  cases b
  case exact v => cases v <;> simp
  all_goals simp

theorem kind_values {k : Kind} {t : Ty} (h : k.of t = true) {v : Val} (hv : has E t v = true) : has E k.type v = true := by
  cases k
  all_goals cases t
  all_goals first
    | (cases h; done)
    | (cases v <;> first | rfl | (cases hv; done))
    | (rename_i w; cases w <;> first | (cases h; done) | (cases v <;> first | rfl | (simp [has, hasP, eq] at hv; done)))

/-- Every value of a type that the type of a kind is assignable from is of this kind, if there is no conjunction of nothing in it (as `typ.AllOf` is, which
accepts all values, `C127_nothing_violated`). -/
theorem C127_values {k : Kind} {b : Ty} (h : assignable E k.type b = true) (hb : b.Acyc) (hne : Every (fun t => ∀ ne, t.operands? ≠ some ([], ne)) b) {v : Val}
    (hv : instanceOf E b v = true) : instanceOf E k.type v = true := by
  have hk : k.type.Acyc := by cases k <;> simp [Kind.type, Ty.Acyc]
  rw [instanceOf_has hb] at hv
  rw [instanceOf_has hk]
  have hm := (C127_kinds k b).1 h
  clear h hb hk
  induction hm with
  | one h => exact kind_values h hv
  | anyOf _ _ ih =>
    obtain ⟨t, ht, h⟩ := (has_anyOf E).1 hv
    exact ih t ht (hne.part ht) h
  | oneOf _ _ ih =>
    have h1 := (has_oneOf E).1 hv
    obtain ⟨t, ht, h⟩ := List.countP_pos_iff.1 (show 0 < _ by rw [h1]; decide)
    exact ih t ht (hne.part ht) h
  | @allOf o ts _ ih =>
    cases ts with
    | nil => exact absurd rfl (hne.here false)
    | cons t ts => exact ih t List.mem_cons_self (hne.part List.mem_cons_self) ((has_allOf E).1 hv t List.mem_cons_self)
  | @allOfVal o vs hm _ =>
    cases vs with
    | nil => exact absurd rfl (hne.here false)
    | cons w ws =>
      rw [has_allOfVal, List.all_eq_true] at hv
      have ht : typeOf (.part o ws.length) w ∈ typesOf o (w :: ws) := List.mem_cons_self
      have h1 := hv _ ht
      have h2 := hm _ ht
      have h3 : (typeOf (.part o ws.length) w).operands? = none := by cases w <;> simp [typeOf, Ty.operands?]
      generalize typeOf (.part o ws.length) w = t at h1 h2 h3
      cases h2
      case one h => exact kind_values h h1
      all_goals cases h3

/-- All values of `/b/|"a"` are strings. -/
example (v : Val) (hv : instanceOf E (.anyOf (.user 1) [.pattern [98], .exact (.str [97])]) v = true) : instanceOf E .strT v = true := by
  refine C127_values (k := .str) ((C127_kinds .str _).2 (.anyOf (by simp) fun t ht => ?_)) (by simp [Ty.Acyc, Acycs, Ty.occ, occs]) ?_ hv
  · simp only [List.mem_cons, List.not_mem_nil, or_false] at ht
    rcases ht with rfl | rfl <;> exact .one rfl
  · refine .mk (by simp [Ty.operands?]) fun c hc => ?_
    simp only [parts, List.mem_cons, List.not_mem_nil, or_false] at hc
    rcases hc with rfl | rfl <;> exact .mk (by simp [Ty.operands?]) (by simp [parts])

/-! ### Combinations, for all types without parts -/

theorem assignable_operands {a b : Ty} {ts : List Ty} {ne : Bool} (ha : NoParts a) (ho : b.operands? = some (ts, ne)) :
    assignable E a b = true ↔ (∀ t ∈ ts, assignable E a t = true) ∧ (ne = true → ts ≠ []) := by
  obtain ⟨hd, h1, h2, hn⟩ := ha
  have hl : ∀ eqT, leafCase E eqT a b = none := by
    intro eqT
    cases b with
    | allOf | allOfVal | anyOf | oneOf => cases a <;> first | rfl | (exact absurd rfl h1) | (exact absurd rfl h2) | (rename_i v; cases v <;> rfl)
    | _ => cases ho
  have hk : ∀ t ∈ ts, a.depth + t.depth < a.depth + b.depth := fun t ht => by have := operands_depth ho t ht; omega
  rw [assignable_iff (Nat.lt_succ_self (a.depth + b.depth)), asg, hd]
  dsimp only
  have he : leafAsg E (tyEq (a.depth + b.depth) []) (fun a' b' => (asg E (a.depth + b.depth) none a' b').map (·.1)) a b =
      (allO (fun t => (asg E (a.depth + b.depth) none a t).map (·.1)) ts).map fun r => r && !(ne && ts.isEmpty) := by
    unfold leafAsg
    split
    · exact absurd rfl (hn _)
    · rw [hl]; dsimp only; rw [ho]
  rw [he]
  obtain ⟨r, h5, h6⟩ := allO_all (f := fun t => (asg E (a.depth + b.depth) none a t).map (·.1)) (xs := ts) (by
    intro t ht
    obtain ⟨r, hr⟩ := asg_total (E := E) (g := none) (hk t ht)
    simp [hr])
  rw [h5]
  have h7 : (∀ t ∈ ts, assignable E a t = true) ↔ r = true := by
    rw [h6]
    refine forall_congr' fun t => imp_congr_right fun ht => ?_
    rw [assignable_iff (hk t ht)]
    obtain ⟨⟨x, g⟩, hr⟩ := asg_total (E := E) (g := none) (hk t ht)
    simp [hr]
  rw [h7]
  cases ts <;> cases ne <;> simp

/-- A type without parts is assignable from a union if there is something in it and it is assignable from all of that, … -/
theorem C127_anyOf {a : Ty} (ha : NoParts a) (o : Oid) (ts : List Ty) :
    assignable E a (.anyOf o ts) = true ↔ ts ≠ [] ∧ ∀ t ∈ ts, assignable E a t = true := by
  rw [assignable_operands ha rfl]; simp [and_comm]

/-- … from an exclusive alternative likewise, … -/
theorem C127_oneOf {a : Ty} (ha : NoParts a) (o : Oid) (ts : List Ty) :
    assignable E a (.oneOf o ts) = true ↔ ts ≠ [] ∧ ∀ t ∈ ts, assignable E a t = true := by
  rw [assignable_operands ha rfl]; simp [and_comm]

/-- … and from a conjunction if it is assignable from all of its operands, though one would be enough. -/
theorem C127_allOf {a : Ty} (ha : NoParts a) (o : Oid) (ts : List Ty) : assignable E a (.allOf o ts) = true ↔ ∀ t ∈ ts, assignable E a t = true := by
  rw [assignable_operands ha rfl]; simp

/-- `1..8` and `2|7`, `2|9` -/
example : assignable E (.intRange 1 8 true) (.anyOf (.user 1) [.exact (.int 2), .exact (.int 7)]) = true ∧
    assignable E (.intRange 1 8 true) (.anyOf (.user 1) [.exact (.int 2), .exact (.int 9)]) = false := by
  have h : NoParts (.intRange 1 8 true) := ⟨rfl, by simp, by simp, by simp⟩
  have h1 : ∀ i : BitVec 64, assignable E (.intRange 1 8 true) (.exact (.int i)) = ((1 : BitVec 64).sle i && i.sle 8) := fun i => rfl
  refine ⟨(C127_anyOf h _ _).2 ⟨by simp, ?_⟩, ?_⟩
  · intro t ht
    simp only [List.mem_cons, List.not_mem_nil, or_false] at ht
    rcases ht with rfl | rfl <;> rw [h1] <;> decide
  · rw [← Bool.not_eq_true, C127_anyOf h]
    rintro ⟨_, h2⟩
    have := h2 (.exact (.int 9)) (by simp)
    rw [h1] at this
    revert this; decide

/-! ### What the README says -/

/-- "The type `int` is assignable from the range `0..10` (and all other integer ranges)." -/
theorem C127_ranges (min max : BitVec 64) (incl : Bool) : assignable E .intT (.intRange min max incl) = true := (C127_kinds .int _).2 (.one rfl)

/-- "A length constrained `string[10,20]` is assignable from `string[12,17]`, etc." -/
theorem C127_within (lo hi lo' hi' : Int) : assignable E (.sizedStr lo hi) (.sizedStr lo' hi') = true ↔ lo ≤ lo' ∧ hi' ≤ hi := by
  rw [C127_lengths]
  constructor
  · intro h
    cases h with
    | one h => simpa [within] using h
  · exact fun h => .one (by simpa [within] using h)

/-- `"a"|"b"|"c"`, and any other enumeration of strings -/
theorem C127_enumerations (o : Oid) (s : Str) (ss : List Str) : assignable E .strT (.anyOf o ((s :: ss).map fun s => .exact (.str s))) = true := by
  refine (C127_kinds .str _).2 (.anyOf (by simp) fun t ht => ?_)
  obtain ⟨s, _, rfl⟩ := List.mem_map.1 ht
  exact .one rfl

/-- `string` is assignable from the pattern `/abc/`, and from `~"x"&(string[3]|/b/)`. -/
example : assignable E .strT (.pattern [97, 98, 99]) = true ∧
    assignable E .strT (.allOf (.user 1) [.ciStr [120], .anyOf (.user 2) [.sizedStr 3 maxInt, .pattern [98]]]) = true := by
  refine ⟨(C127_kinds .str _).2 (.one rfl), (C127_kinds .str _).2 (.allOf fun t ht => ?_)⟩
  simp only [List.mem_cons, List.not_mem_nil, or_false] at ht
  rcases ht with rfl | rfl
  · exact .one rfl
  · refine .anyOf (by simp) fun t ht => ?_
    simp only [List.mem_cons, List.not_mem_nil, or_false] at ht
    rcases ht with rfl | rfl <;> exact .one rfl

example : assignable E (.sizedStr 10 20) (.sizedStr 12 17) = true := (C127_within _ _ _ _).2 (by omega)

/-- "The type `string` is assignable from […] any other type that restricts a string": **not** from a conjunction with a type that is not one of strings, as
`string&!"a"`. -/
theorem C127_conjunction_violated : assignable E .strT (.allOf (.user 1) [.strT, .not (.exact (.str [97]))]) = false ∧
    ∀ v, instanceOf E (.allOf (.user 1) [.strT, .not (.exact (.str [97]))]) v = true → instanceOf E .strT v = true := by
  refine ⟨?_, fun v h => ?_⟩
  · rw [← Bool.not_eq_true]
    intro h
    cases (C127_kinds .str _).1 h with
    | one h => cases h
    | allOf h =>
      cases h (.not (.exact (.str [97]))) (by simp) with
      | one h => cases h
  · rw [instanceOf_has (by simp [Ty.Acyc, Acycs, Ty.occ, occs])] at h ⊢
    rw [has_allOf] at h
    exact h .strT (by simp)

/-- `float` is not assignable from `1.0|2.0`. -/
theorem C127_float_violated (o : Oid) (ts : List Ty) : assignable E .floatT (.anyOf o ts) = false := by
  rw [← Bool.not_eq_true, C127_float]
  simp

/-- `map[any]any` is not assignable from any type of structs. -/
theorem C127_struct_violated (o : Oid) (additional : Bool) (fs : List (Val × Bool × Ty)) : assignable E .mapT (.struct o additional fs) = false := by
  rw [← Bool.not_eq_true]
  intro h
  cases (C127_kinds .map _).1 h with
  | one h => cases h

/-- Every kind is assignable from `typ.AllOf`, the conjunction of nothing, which accepts every value. -/
theorem C127_nothing_violated (k : Kind) (o : Oid) : assignable E k.type (.allOf o []) = true ∧ ∀ v, instanceOf E (.allOf o []) v = true := by
  refine ⟨(C127_kinds k _).2 (.allOf (by simp)), fun v => ?_⟩
  rw [instanceOf_has (by simp [Ty.Acyc, Acycs, Ty.occ, occs]), has_allOf]
  simp

end Verif.Types
