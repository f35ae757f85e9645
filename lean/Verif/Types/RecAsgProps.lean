import Verif.Types.RecAsgSound
import Verif.Types.RecProps
/-!
# C83: Assignable of types that contain themselves
-/
set_option autoImplicit false
set_option linter.unusedVariables false
set_option linter.unusedSimpArgs false
namespace Verif.RecAsg
open Verif.Value
open Verif.Types (Ty Env maxInt)
open Verif.Types.RecEq (Plain)
open Verif.Types.Rec (V Obj Heap View Reading Positive Conforms conforms_reading Says)

theorem Returns.unique {E : Env} {T : Types} {a b : Nat} {r r' : Bool} (h : Returns E T a b r) (h' : Returns E T a b r') : r = r' := by
  obtain ⟨n, h⟩ := h
  obtain ⟨n', h'⟩ := h'
  have h1 := h (max n n') (Nat.le_max_left _ _)
  have h2 := h' (max n n') (Nat.le_max_right _ _)
  rw [h1] at h2; exact Option.some.inj h2

theorem returns_of_run {E : Env} {T : Types} {n a b : Nat} {r : Bool} (h : assignable? E T n a b = some r) : Returns E T a b r := by
  rw [assignable?] at h
  cases e : asg E T n none a (some b) with
  | none => rw [e] at h; cases h
  | some p => rw [e] at h; cases h; exact returns_of e

/-! ## C83 -/

/-- **C83** `Assignable` returns for all types that contain themselves, unless a union is among its own operands or both types contain
an array type that contains itself. -/
theorem C83_returns (E : Env) (T : Types) (hc : Closed T) (ho : ¬ OwnOperand T) (a b : Nat) (ha : a < T.length) (hb : b < T.length)
    (h : ¬ ArrayCycle T a ∨ ¬ ArrayCycle T b) : ∃ r, Returns E T a b r := by
  obtain ⟨n, r, g, h⟩ := total (E := E) hc ho ha hb h
  exact ⟨r, returns_of h⟩

/-- **C83** A type is assignable from every type that is the same when written out, wherever it returns at all. -/
theorem C83_same (E : Env) (T : Types) (hc : Closed T) (a b : Nat) (h : Same T a b) (r : Bool) (hr : Returns E T a b r) : r = true := by
  obtain ⟨S, hab, hS⟩ := h
  obtain ⟨n, hn⟩ := hr
  have := hn n (Nat.le_refl _)
  rw [assignable?] at this
  cases e : asg E T n none a (some b) with
  | none => rw [e] at this; cases this
  | some p =>
    obtain ⟨r', g'⟩ := p
    rw [e] at this
    cases this
    exact same_true hc hS n none a b _ g' (.same hab) e

/-- **C83** (partial) If a type is assignable from another, it accepts all the instances of the other.  Partial: one of the two must not contain
a type that contains itself, and the operands of unions must be types without parts; see `C83_files_violated`, `C83_data_violated` and
`C83_periods_violated`.  (And what theorem C26 leaves out: case insensitive strings and unions of nothing.) -/
theorem C83_partial (E : Env) (T : Types) (hc : Closed T) (hr : ∀ t, .leaf t ∈ T → Regular t) (hf : Flat T) (he : .anyOf [] ∉ T)
    (a b : Nat) (ha : a < T.length) (hb : b < T.length) (h : ¬ ContainsItself T a ∨ ¬ ContainsItself T b) :
    ∃ r, Returns E T a b r ∧ (r = true → Includes E T a b) := by
  have hv : ∀ t : Nat, T[t]? ≠ some (Node.anyOf []) := fun t ht => he (List.mem_of_getElem? ht)
  have hd : ∀ c, ¬ ContainsItself T c → ∀ u w, Reach T c u → Mentions T u w → rank (Mentions T) T.length w < rank (Mentions T) T.length u := by
    intro c hcon u w hu hw
    obtain ⟨x, hx, _⟩ := id hw
    exact rank_lt (lt_of_get hx) hw fun hn => hcon ⟨u, hu, .head' hw hn⟩
  have key : ∀ H, GoodHeap H → ∀ S, Reading (T.map (Node.toRec E)) H S → ∃ r g, asg E T (rank (Mentions T) T.length a + rank (Mentions T) T.length b + 5) none a (some b) =
      some (r, g) ∧ (r = true → Inc S a (some b)) := by
    intro H hH S hS
    rcases h with h | h
    · obtain ⟨r, g, h1, _, _, h2⟩ := tree_left (depth := rank (Mentions T) T.length) hc hr hf hH hS hv (rank (Mentions T) T.length a + rank (Mentions T) T.length b + 1)
        none a b ha hb trivial (hd a h) (by omega)
      exact ⟨r, g, h1, h2 trivial⟩
    · obtain ⟨r, g, h1, _, _, h2⟩ := tree_right (depth := rank (Mentions T) T.length) hc hr hf hH hS hv (rank (Mentions T) T.length a + rank (Mentions T) T.length b + 1)
        none a b ha hb trivial (hd b h) (by omega)
      exact ⟨r, g, h1, h2 trivial⟩
  have hpos : Positive (T.map (Node.toRec E)) := by
    intro x hx
    obtain ⟨y, _, rfl⟩ := List.mem_map.1 hx
    unfold Node.toRec
    split <;> rfl
  obtain ⟨r, g, h1, _⟩ := key [] ⟨by simp, by simp⟩ _ (conforms_reading hpos)
  refine ⟨r, returns_of h1, fun hrt H hH S hS v hgv hbv => ?_⟩
  obtain ⟨r', g', h1', h2⟩ := key H hH S hS
  rw [h1] at h1'
  cases h1'
  exact h2 hrt v hgv hbv

theorem allO_true {f : Nat → Option Bool} : ∀ {us : List Nat}, Types.allO f us = some true ↔ ∀ u ∈ us, f u = some true
  | [] => by simp [Types.allO]
  | u :: us => by
    rw [Types.allO]
    cases h : f u with
    | none => simp [h]
    | some b => cases b <;> simp [h, allO_true (us := us)]

theorem asg_leaf_union {E : Env} {T : Types} {a b : Nat} {s : Ty} {us : List Nat} (ha : T[a]? = some (.leaf s)) (hb : T[b]? = some (.anyOf us))
    (hs : Types.leafCase E Ty.equals s (.anyOf (.user 0) []) = none) (n : Nat) :
    assignable? E T (n + 1) a b = (Types.allO (fun u => assignable? E T n a u) us).map fun r => r && !us.isEmpty := by
  have hne : ¬ (some b = some a) := by intro h; cases h; rw [ha] at hb; cases hb
  rw [assignable?, asg, if_neg hne]
  simp only [ha, node?, hb, leafAsg, Node.shape, hs, assignable?]
  cases Types.allO (fun u => Option.map (·.1) (asg E T n none a (some u))) us <;> rfl

/-- **C83** Which unions a type of scalars is assignable from: those all of whose operands it is assignable from.  (Not so
`float`: float.go:177-183 does not look into unions.) -/
theorem C83_scalar_union (E : Env) (T : Types) (a b : Nat) (s : Ty) (us : List Nat) (ha : T[a]? = some (.leaf s)) (hb : T[b]? = some (.anyOf us))
    (hs : s ∈ [Ty.intT, .boolT, .strT, .nilT, .timeT, .regexpT]) (hne : us ≠ []) :
    Returns E T a b true ↔ ∀ u ∈ us, Returns E T a u true := by
  have hs : Types.leafCase E Ty.equals s (.anyOf (.user 0) []) = none := by
    simp only [List.mem_cons, List.not_mem_nil, or_false] at hs
    rcases hs with rfl | rfl | rfl | rfl | rfl | rfl <;> rfl
  have key : ∀ n, assignable? E T (n + 1) a b = some true ↔ ∀ u ∈ us, assignable? E T n a u = some true := by
    intro n
    rw [asg_leaf_union ha hb hs n, ← allO_true]
    have : us.isEmpty = false := by cases us <;> simp_all
    cases h : Types.allO (fun u => assignable? E T n a u) us with
    | none => simp
    | some r => cases r <;> simp [this]
  constructor
  · rintro ⟨n, hn⟩ u hu
    exact returns_of_run ((key n).1 (hn (n + 1) (by omega)) u hu)
  · intro h
    have : ∃ N, ∀ u ∈ us, ∀ m, N ≤ m → assignable? E T m a u = some true := by
      clear hne key hb
      induction us with
      | nil => exact ⟨0, by simp⟩
      | cons u us ih =>
        obtain ⟨N, hN⟩ := ih fun u hu => h u (by simp [hu])
        obtain ⟨n, hn⟩ := h u (by simp)
        refine ⟨max N n, fun u' hu' m hm => ?_⟩
        rcases List.mem_cons.1 hu' with rfl | hu'
        · exact hn m (by omega)
        · exact hN u' hu' m (by omega)
    obtain ⟨N, hN⟩ := this
    exact returns_of_run (n := N + 1) ((key N).2 fun u hu => hN u hu N (Nat.le_refl _))

theorem toRec_positive (E : Env) (T : Types) : Positive (T.map (Node.toRec E)) := by
  intro x hx
  obtain ⟨y, _, rfl⟩ := List.mem_map.1 hx
  unfold Node.toRec
  split <;> rfl

/-! ## Examples -/

namespace Ex

def E0 : Env := { rx := fun _ _ => false, fold := fun a b => a == b, same := fun a b => a == b }

/-- `files=map[string](int|files)` of docs/types.md at 0, the same read once more at 4, `map[string](string|regexp)` at 6, `map[string](int|map[string]int)` at 9,
`map[string]int` at 11 -/
def files : Types := [.map 1 2 0 maxInt, .leaf .strT, .anyOf [3, 0], .leaf .intT, .map 1 5 0 maxInt, .anyOf [3, 4],
  .map 1 7 0 maxInt, .anyOf [1, 8], .leaf .regexpT, .map 1 10 0 maxInt, .anyOf [3, 11], .map 1 3 0 maxInt]

theorem files_closed : Closed files := by
  refine ⟨by simp [files, Node.refs], fun t ht => ?_⟩
  simp only [files, List.mem_cons, List.not_mem_nil, or_false, Node.leaf.injEq, reduceCtorEq, false_or] at ht
  rcases ht with rfl | rfl | rfl <;> trivial

theorem files_operands : ¬ OwnOperand files := by
  rintro ⟨t, ht⟩
  have key : ∀ t u, OperandOf files t u → (if t = 2 ∨ t = 5 ∨ t = 7 ∨ t = 10 then 1 else 0) = 1 ∧ (if u = 2 ∨ u = 5 ∨ u = 7 ∨ u = 10 then 1 else 0) = 0 := by
    rintro t u ⟨ts, h, hu⟩
    match t, h with
    | 0, h | 1, h | 3, h | 4, h | 6, h | 8, h | 9, h | 11, h => cases h
    | 2, h | 5, h | 7, h | 10, h => cases h; simp at hu; rcases hu with rfl | rfl <;> decide
    | n + 12, h => simp [files] at h
  rcases ht with h | ⟨h, h'⟩
  · have := key _ _ h; omega
  · have h2 := key _ _ h'
    obtain ⟨c, h3, _⟩ := Relation.TransGen.head'_iff.1 h
    have := key _ _ h3
    have h4 : ∀ x y, Relation.TransGen (OperandOf files) x y → (if y = 2 ∨ y = 5 ∨ y = 7 ∨ y = 10 then 1 else 0) = 0 := by
      intro x y h
      cases h with
      | single h => exact (key _ _ h).2
      | tail _ h => exact (key _ _ h).2
    have := h4 _ _ h
    omega

theorem files_arrays (t : Nat) : ¬ ArrayCycle files t := by
  rintro ⟨u, e, lo, hi, _, h, _⟩
  have := List.mem_of_getElem? h
  simp [files] at this

end Ex

/-- The type of the documentation against itself, read twice -/
example : ∃ r, Returns Ex.E0 Ex.files 0 4 r := C83_returns _ _ Ex.files_closed Ex.files_operands 0 4 (by decide) (by decide) (.inl (Ex.files_arrays 0))

theorem Ex.files_same : Same Ex.files 0 4 := by
  refine ⟨fun c d => (c = 0 ∧ d = 4) ∨ (c = 2 ∧ d = 5) ∨ (c = 1 ∧ d = 1) ∨ (c = 3 ∧ d = 3), .inl ⟨rfl, rfl⟩, ?_⟩
  rintro c d (⟨rfl, rfl⟩ | ⟨rfl, rfl⟩ | ⟨rfl, rfl⟩ | ⟨rfl, rfl⟩)
  · exact ⟨_, _, rfl, rfl, .map (by simp) (by simp)⟩
  · exact ⟨_, _, rfl, rfl, .anyOf (.cons (by simp) (.cons (by simp) .nil))⟩
  · exact ⟨_, _, rfl, rfl, .leaf (by decide +kernel)⟩
  · exact ⟨_, _, rfl, rfl, .leaf (by decide +kernel)⟩

/-- Each is assignable from the other. -/
example : Returns Ex.E0 Ex.files 0 4 true := by
  obtain ⟨r, h⟩ := C83_returns Ex.E0 _ Ex.files_closed Ex.files_operands 0 4 (by decide) (by decide) (.inl (Ex.files_arrays 0))
  rwa [C83_same _ _ Ex.files_closed 0 4 Ex.files_same r h] at h

/-- `int` from `0..5|7`, and not from `0..5|string` -/
example : let T : Types := [.leaf .intT, .leaf (.intRange 0 5 true), .leaf (.exact (.int 7)), .leaf .strT, .anyOf [1, 2], .anyOf [1, 3]]
    Returns Ex.E0 T 0 4 true ∧ Returns Ex.E0 T 0 5 false :=
  ⟨returns_of_run (n := 4) (by decide +kernel), returns_of_run (n := 4) (by decide +kernel)⟩

namespace Ex

/-- `x=map[string]x` at 0, `map[string]map[string]int` at 2, `map[string]map` at 5 -/
def deep : Types := [.map 1 0 0 maxInt, .leaf .strT, .map 1 3 0 maxInt, .map 1 4 0 maxInt, .leaf .intT, .map 1 6 0 maxInt, .leaf .mapT]

theorem deep_closed : Closed deep := by
  refine ⟨by simp [deep, Node.refs], fun t ht => ?_⟩
  simp only [deep, List.mem_cons, List.not_mem_nil, or_false, Node.leaf.injEq, reduceCtorEq, false_or] at ht
  rcases ht with rfl | rfl | rfl <;> trivial

theorem deep_mentions {t u : Nat} (h : Mentions deep t u) : t < u ∨ t = 0 ∨ u = 1 := by
  obtain ⟨x, h, hu⟩ := h
  match t, h with
  | 0, h => exact .inr (.inl rfl)
  | 1, h | 4, h | 6, h => cases h; cases hu
  | 2, h | 3, h | 5, h => cases h; simp [Node.refs] at hu; omega
  | n + 7, h => simp [deep] at h

theorem deep_tree {t : Nat} (ht : t ≠ 0) : ¬ ContainsItself deep t := by
  have reach : ∀ u, Reach deep t u → u ≠ 0 := by
    intro u h
    induction h with
    | refl => exact ht
    | tail _ h ih => rcases deep_mentions h with h | h | h <;> omega
  rintro ⟨u, hu, hc⟩
  have h0 := reach u hu
  have key : ∀ a b, Relation.TransGen (Mentions deep) a b → a ≠ 0 → b ≠ 0 ∧ (a < b ∨ (b = 1 ∧ a ≠ 1)) := by
    intro a b h ha
    have none1 : ∀ b, ¬ Mentions deep 1 b := by rintro b ⟨x, h, hb⟩; cases h; cases hb
    induction h with
    | single h =>
      rcases deep_mentions h with h' | h' | h'
      · exact ⟨by omega, .inl h'⟩
      · exact absurd h' ha
      · subst h'
        refine ⟨by omega, ?_⟩
        by_cases h1 : a = 1
        · exact absurd h (by rw [h1]; exact none1 _)
        · exact .inr ⟨rfl, h1⟩
    | tail _ h ih =>
      rename_i b c _
      rcases deep_mentions h with h' | h' | h'
      · refine ⟨by omega, ?_⟩
        rcases ih.2 with ih | ⟨rfl, _⟩
        · exact .inl (by omega)
        · exact absurd h (none1 _)
      · exact absurd h' ih.1
      · subst h'
        refine ⟨by omega, ?_⟩
        by_cases h1 : a = 1
        · subst h1
          rcases Relation.TransGen.head'_iff.1 (‹Relation.TransGen (Mentions deep) 1 b›) with ⟨d, hd, _⟩
          exact absurd hd (none1 _)
        · exact .inr ⟨rfl, h1⟩
  rcases (key u u hc h0).2 with h | ⟨h1, h2⟩
  · omega
  · exact h2 h1

theorem deep_flat : Flat deep := by
  rintro t u ⟨ts, h, _⟩
  have := List.mem_of_getElem? h
  simp [deep] at this

theorem deep_regular (t : Ty) (ht : .leaf t ∈ deep) : Regular t := by
  simp only [deep, List.mem_cons, List.not_mem_nil, or_false, Node.leaf.injEq, reduceCtorEq, false_or] at ht
  rcases ht with rfl | rfl | rfl <;> trivial

end Ex

/-- `map[string]map` and `x=map[string]x`: assignable, and all instances of `x` are maps of maps. -/
example : Returns Ex.E0 Ex.deep 5 0 true ∧ Includes Ex.E0 Ex.deep 5 0 := by
  have h1 : Returns Ex.E0 Ex.deep 5 0 true := returns_of_run (n := 6) (by decide +kernel)
  obtain ⟨r, h, hi⟩ := C83_partial Ex.E0 Ex.deep Ex.deep_closed Ex.deep_regular Ex.deep_flat (by simp [Ex.deep]) 5 0 (by decide) (by decide) (.inl (Ex.deep_tree (by decide)))
  exact ⟨h1, hi (h.unique h1)⟩

/-- ... and not the other way round with `map[string]map[string]int`. -/
example : Returns Ex.E0 Ex.deep 0 2 false := returns_of_run (n := 8) (by decide +kernel)

/-! ## Where the code does not do what the types say -/

namespace Ex
/-- `x=[]x` and `y=[]y` -/
def lists : Types := [.arr 0 0 maxInt, .arr 1 0 maxInt]
/-- `x=int|x` -/
def own : Types := [.anyOf [1, 0], .leaf .intT]
end Ex

/-- **C83** is false: `x=[]x` and `y=[]y` are the same type, but `x.Assignable(y)` never returns; array types drop the guard against endless
recursion. -/
theorem C83_array_violated : Same Ex.lists 0 1 ∧ Diverges Ex.E0 Ex.lists 0 1 := by
  refine ⟨⟨fun c d => c = 0 ∧ d = 1, ⟨rfl, rfl⟩, ?_⟩, fun n => ?_⟩
  · rintro c d ⟨rfl, rfl⟩
    exact ⟨_, _, rfl, rfl, .arr ⟨rfl, rfl⟩⟩
  · have : asg Ex.E0 Ex.lists n none 0 (some 1) = none := by
      induction n with
      | zero => rfl
      | succ n ih =>
        rw [asg_deep (x := .arr 0 0 maxInt) (y := .arr 1 0 maxInt) (by decide) rfl rfl rfl rfl id]
        simp [deepAsg, ih]
    rw [assignable?, this]; rfl

/-- **C83** is false: `int.Assignable(x)` never returns where `x=int|x`. -/
theorem C83_operand_violated : Diverges Ex.E0 Ex.own 1 0 := by
  intro n
  have : asg Ex.E0 Ex.own n none 1 (some 0) = none := by
    induction n with
    | zero => rfl
    | succ n ih =>
      rw [asg_leaf (s := .intT) (y := .anyOf [1, 0]) (by decide) rfl rfl]
      cases n with
      | zero => rfl
      | succ n =>
        have : leafAsg Ex.E0 (fun u => (asg Ex.E0 Ex.own (n + 1) none 1 (some u)).map (·.1)) .intT (.anyOf [1, 0]) = none := by
          simp [leafAsg, Node.shape, Verif.Types.leafCase, Verif.Types.allO, asg_same, ih]
        rw [this]; rfl
  rw [assignable?, this]; rfl

/-- **C83** is false: the type of the documentation is assignable from `map[string](string|regexp)`, of which `{"a":"x"}` is an instance,
but not of the former. -/
theorem C83_files_violated : Returns Ex.E0 Ex.files 0 6 true ∧ ¬ Includes Ex.E0 Ex.files 0 6 := by
  refine ⟨returns_of_run (n := 12) (by decide +kernel), fun h => ?_⟩
  have hr := conforms_reading (T := Ex.files.map (Node.toRec Ex.E0)) (H := [.map [(.str [97], .atom (.str [120]))]]) (toRec_positive _ _)
  have := h _ ⟨by simp [Obj.parts, Good, WF, Verif.Types.Fits]; decide, by simp [maxInt]⟩ _ hr (.obj 0) trivial ?_
  · obtain ⟨es, e, _, _, h⟩ := (hr 0 _ rfl _).1 this
    cases e
    obtain ⟨t, ht, h⟩ := (hr 2 _ rfl _).1 (h _ (.head _)).2
    simp only [List.mem_cons, List.not_mem_nil, or_false] at ht
    rcases ht with rfl | rfl
    · have : leafSays Ex.E0 .intT (.atom (.str [120])) = true := (hr 3 _ rfl _).1 h
      exact Bool.noConfusion (show false = true from this)
    · obtain ⟨es, e, _, _, h⟩ := (hr 0 _ rfl _).1 h
      cases e
  · refine (hr 6 _ rfl _).2 ⟨_, rfl, by decide, by decide, ?_⟩
    intro e he
    simp only [List.mem_cons, List.not_mem_nil, or_false] at he
    subst he
    have hs : ∀ s, Conforms (Ex.files.map (Node.toRec Ex.E0)) [.map [(.str [97], .atom (.str [120]))]] 1 (.atom (.str s)) := fun s =>
      (hr 1 _ rfl _).2 (show leafSays Ex.E0 .strT (.atom (.str s)) = true from rfl)
    exact ⟨hs _, (hr 7 _ rfl _).2 ⟨1, by simp, hs _⟩⟩

namespace Ex
/-- The built-in type `data` (internal/alias.go:118-126), `string|[]regexp` at 8, `map[string]map[string]regexp` at 11 -/
def data : Types := [.anyOf [1, 2, 3, 4, 5, 6, 7], .leaf .strT, .leaf .intT, .leaf .floatT, .leaf .boolT, .leaf .nilT, .arr 0 0 maxInt, .map 1 0 0 maxInt,
  .anyOf [1, 9], .arr 10 0 maxInt, .leaf .regexpT, .map 1 12 0 maxInt, .map 1 10 0 maxInt]

theorem data_regexp {H : Heap} {S : Nat → V → Prop} (hr : Reading (data.map (Node.toRec E0)) H S) (s : Str) : ¬ S 0 (.atom (.regexp s)) := by
  intro h
  obtain ⟨t, ht, h⟩ := (hr 0 _ rfl _).1 h
  simp only [List.mem_cons, List.not_mem_nil, or_false] at ht
  rcases ht with rfl | rfl | rfl | rfl | rfl | rfl | rfl
  · have : leafSays E0 .strT (.atom (.regexp s)) = true := (hr 1 _ rfl _).1 h
    exact Bool.noConfusion (show false = true from this)
  · have : leafSays E0 .intT (.atom (.regexp s)) = true := (hr 2 _ rfl _).1 h
    exact Bool.noConfusion (show false = true from this)
  · have : leafSays E0 .floatT (.atom (.regexp s)) = true := (hr 3 _ rfl _).1 h
    exact Bool.noConfusion (show false = true from this)
  · have : leafSays E0 .boolT (.atom (.regexp s)) = true := (hr 4 _ rfl _).1 h
    exact Bool.noConfusion (show false = true from this)
  · have : leafSays E0 .nilT (.atom (.regexp s)) = true := (hr 5 _ rfl _).1 h
    exact Bool.noConfusion (show false = true from this)
  · obtain ⟨es, e, _⟩ := (hr 6 _ rfl _).1 h; cases e
  · obtain ⟨es, e, _⟩ := (hr 7 _ rfl _).1 h; cases e
end Ex

/-- **C83** is false: the built-in type `data` is assignable from `string|[]regexp` and from `map[string]map[string]regexp`, although `data` has no
regular expressions, not from `[]regexp` though. -/
theorem C83_data_violated : (Returns Ex.E0 Ex.data 0 8 true ∧ ¬ Includes Ex.E0 Ex.data 0 8) ∧ (Returns Ex.E0 Ex.data 0 11 true ∧ ¬ Includes Ex.E0 Ex.data 0 11) ∧
    Returns Ex.E0 Ex.data 0 9 false := by
  refine ⟨⟨returns_of_run (n := 14) (by decide +kernel), fun h => ?_⟩, ⟨returns_of_run (n := 14) (by decide +kernel), fun h => ?_⟩, returns_of_run (n := 14) (by decide +kernel)⟩
  · have hr := conforms_reading (T := Ex.data.map (Node.toRec Ex.E0)) (H := [.arr [.atom (.regexp [120])]]) (toRec_positive _ _)
    have := h _ ⟨by simp [Obj.parts, Good, WF, Verif.Types.Fits], by simp⟩ _ hr (.obj 0) trivial ?_
    · obtain ⟨t, ht, h⟩ := (hr 0 _ rfl _).1 this
      simp only [List.mem_cons, List.not_mem_nil, or_false] at ht
      rcases ht with rfl | rfl | rfl | rfl | rfl | rfl | rfl
      · have : leafSays Ex.E0 .strT (.arr 1) = true := (hr 1 _ rfl _).1 h
        exact absurd this (by simp [leafSays])
      · have : leafSays Ex.E0 .intT (.arr 1) = true := (hr 2 _ rfl _).1 h
        exact absurd this (by simp [leafSays])
      · have : leafSays Ex.E0 .floatT (.arr 1) = true := (hr 3 _ rfl _).1 h
        exact absurd this (by simp [leafSays])
      · have : leafSays Ex.E0 .boolT (.arr 1) = true := (hr 4 _ rfl _).1 h
        exact absurd this (by simp [leafSays])
      · have : leafSays Ex.E0 .nilT (.arr 1) = true := (hr 5 _ rfl _).1 h
        exact absurd this (by simp [leafSays])
      · obtain ⟨es, e, _, _, h⟩ := (hr 6 _ rfl _).1 h
        cases e
        exact Ex.data_regexp hr _ (h _ (.head _))
      · obtain ⟨es, e, _⟩ := (hr 7 _ rfl _).1 h; cases e
    · refine (hr 8 _ rfl _).2 ⟨9, by simp, (hr 9 _ rfl _).2 ⟨_, rfl, by decide, by decide, ?_⟩⟩
      intro e he
      simp only [List.mem_cons, List.not_mem_nil, or_false] at he
      subst he
      exact (hr 10 _ rfl _).2 (show leafSays Ex.E0 .regexpT (.atom (.regexp [120])) = true from rfl)
  · have hr := conforms_reading (T := Ex.data.map (Node.toRec Ex.E0)) (H := [.map [(.str [97], .obj 1)], .map [(.str [97], .atom (.regexp [120]))]]) (toRec_positive _ _)
    have inner : ∀ p es, (p = 0 ∧ es = [((.str [97] : Val), V.obj 1)]) ∨ (p = 1 ∧ es = [((.str [97] : Val), V.atom (.regexp [120]))]) →
        Conforms (Ex.data.map (Node.toRec Ex.E0)) [.map [(.str [97], .obj 1)], .map [(.str [97], .atom (.regexp [120]))]] 0 (.obj p) →
        ∀ e ∈ es, Conforms (Ex.data.map (Node.toRec Ex.E0)) [.map [(.str [97], .obj 1)], .map [(.str [97], .atom (.regexp [120]))]] 0 e.2 := by
      intro p es hp h
      obtain ⟨t, ht, h⟩ := (hr 0 _ rfl _).1 h
      simp only [List.mem_cons, List.not_mem_nil, or_false] at ht
      have hmap : Verif.Types.Rec.view [.map [(.str [97], .obj 1)], .map [(.str [97], .atom (.regexp [120]))]] (.obj p) = .map 1 := by
        rcases hp with ⟨rfl, _⟩ | ⟨rfl, _⟩ <;> rfl
      rcases ht with rfl | rfl | rfl | rfl | rfl | rfl | rfl
      · have : leafSays Ex.E0 .strT _ = true := (hr 1 _ rfl _).1 h
        rw [hmap] at this; exact absurd this (by simp [leafSays])
      · have : leafSays Ex.E0 .intT _ = true := (hr 2 _ rfl _).1 h
        rw [hmap] at this; exact absurd this (by simp [leafSays])
      · have : leafSays Ex.E0 .floatT _ = true := (hr 3 _ rfl _).1 h
        rw [hmap] at this; exact absurd this (by simp [leafSays])
      · have : leafSays Ex.E0 .boolT _ = true := (hr 4 _ rfl _).1 h
        rw [hmap] at this; exact absurd this (by simp [leafSays])
      · have : leafSays Ex.E0 .nilT _ = true := (hr 5 _ rfl _).1 h
        rw [hmap] at this; exact absurd this (by simp [leafSays])
      · obtain ⟨es, e, _⟩ := (hr 6 _ rfl _).1 h
        rcases hp with ⟨rfl, _⟩ | ⟨rfl, _⟩ <;> cases e
      · obtain ⟨es', e, _, _, h⟩ := (hr 7 _ rfl _).1 h
        rcases hp with ⟨rfl, rfl⟩ | ⟨rfl, rfl⟩ <;> cases e <;> exact fun e he => (h e he).2
    have := h _ ⟨by simp [Obj.parts, Good, WF, Verif.Types.Fits]; decide, by simp [maxInt]⟩ _ hr (.obj 0) trivial ?_
    · have h1 := inner 0 _ (.inl ⟨rfl, rfl⟩) this _ (.head _)
      exact Ex.data_regexp hr _ (inner 1 _ (.inr ⟨rfl, rfl⟩) h1 _ (.head _))
    · have hs : ∀ s, Conforms (Ex.data.map (Node.toRec Ex.E0)) [.map [(.str [97], .obj 1)], .map [(.str [97], .atom (.regexp [120]))]] 1 (.atom (.str s)) := fun s =>
        (hr 1 _ rfl _).2 (show leafSays Ex.E0 .strT (.atom (.str s)) = true from rfl)
      refine (hr 11 _ rfl _).2 ⟨_, rfl, by decide, by decide, ?_⟩
      intro e he
      simp only [List.mem_cons, List.not_mem_nil, or_false] at he
      subst he
      refine ⟨hs _, (hr 12 _ rfl _).2 ⟨_, rfl, by decide, by decide, ?_⟩⟩
      intro e he
      simp only [List.mem_cons, List.not_mem_nil, or_false] at he
      subst he
      exact ⟨hs _, (hr 10 _ rfl _).2 (show leafSays Ex.E0 .regexpT (.atom (.regexp [120])) = true from rfl)⟩

namespace Ex
/-- `a=map[string]map[any]a` at 0, `b=map[string]map[int]map[string]b` at 2 -/
def periods : Types := [.map 4 1 0 maxInt, .map 5 0 0 maxInt, .map 4 3 0 maxInt, .map 6 7 0 maxInt, .leaf .strT, .leaf .any, .leaf .intT, .map 4 2 0 maxInt]
end Ex

/-- **C83** is false also without unions: `a=map[string]map[any]a` is assignable from `b=map[string]map[int]map[string]b`, which has an instance that
`a` has not, namely `{"a":{1:{"a":{"a":{1:{}}}}}}`.  The check ends where both have been met before, if not the one against the other. -/
theorem C83_periods_violated : Flat Ex.periods ∧ Returns Ex.E0 Ex.periods 0 2 true ∧ ¬ Includes Ex.E0 Ex.periods 0 2 := by
  refine ⟨?_, returns_of_run (n := 14) (by decide +kernel), fun h => ?_⟩
  · rintro t u ⟨ts, h, _⟩
    have := List.mem_of_getElem? h
    simp [Ex.periods] at this
  · have hr := conforms_reading (T := Ex.periods.map (Node.toRec Ex.E0)) (H := [.map [(.str [97], .obj 1)], .map [(.int 1, .obj 2)], .map [(.str [97], .obj 3)],
      .map [(.str [97], .obj 4)], .map [(.int 1, .obj 5)], .map []]) (toRec_positive _ _)
    generalize hC : Conforms _ _ = C at hr
    have hs : ∀ s, C 4 (.atom (.str s)) := fun s =>
      (hr 4 _ rfl _).2 (show leafSays Ex.E0 .strT (.atom (.str s)) = true from rfl)
    have hi : C 6 (.atom (.int 1)) := (hr 6 _ rfl _).2 (show leafSays Ex.E0 .intT (.atom (.int 1)) = true from rfl)
    have step : ∀ (t : Nat) (k v : Nat) (p : Nat) (x : Val) (w : V), (Ex.periods.map (Node.toRec Ex.E0))[t]? = some (.map k v 0 maxInt.toNat) →
        Verif.Types.Rec.mapOf [.map [(.str [97], .obj 1)], .map [(.int 1, .obj 2)], .map [(.str [97], .obj 3)],
      .map [(.str [97], .obj 4)], .map [(.int 1, .obj 5)], .map []] (.obj p) = some [(x, w)] → (C t (.obj p) ↔ C k (.atom x) ∧ C v w) := by
      intro t k v p x w ht hp
      refine (hr t _ ht _).trans ⟨?_, ?_⟩
      · rintro ⟨es, e, _, _, h⟩
        rw [hp] at e; cases e
        exact h _ (.head _)
      · rintro h
        refine ⟨_, hp, Nat.zero_le _, (by decide : 1 ≤ maxInt.toNat), fun e he => ?_⟩
        simp only [List.mem_cons, List.not_mem_nil, or_false] at he
        subst he; exact h
    have := h _ ⟨by simp [Obj.parts, Good, WF, Verif.Types.Fits]; decide, by simp [maxInt]⟩ _ hr (.obj 0) trivial ?_
    · have h1 := ((step 0 _ _ 0 _ _ rfl rfl).1 this).2
      have h2 := ((step 1 _ _ 1 _ _ rfl rfl).1 h1).2
      have h3 := ((step 0 _ _ 2 _ _ rfl rfl).1 h2).2
      have h4 := ((step 1 _ _ 3 _ _ rfl rfl).1 h3).2
      have h5 := ((step 0 _ _ 4 _ _ rfl rfl).1 h4).1
      have : leafSays Ex.E0 .strT (.atom (.int 1)) = true := (hr 4 _ rfl _).1 h5
      exact Bool.noConfusion (show false = true from this)
    · have h5 : C 7 (.obj 5) := (hr 7 _ rfl _).2 ⟨[], rfl, by decide, by decide, by simp⟩
      have h4 := (step 3 _ _ 4 _ _ rfl rfl).2 ⟨hi, h5⟩
      have h3 := (step 2 _ _ 3 _ _ rfl rfl).2 ⟨hs _, h4⟩
      have h2 := (step 7 _ _ 2 _ _ rfl rfl).2 ⟨hs _, h3⟩
      have h1 := (step 3 _ _ 1 _ _ rfl rfl).2 ⟨hi, h2⟩
      exact (step 2 _ _ 0 _ _ rfl rfl).2 ⟨hs _, h1⟩

end Verif.RecAsg
