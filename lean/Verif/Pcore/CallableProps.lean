import Verif.Pcore.Callable
/-!
# C114: `Callable` in pcore expressions
-/
set_option autoImplicit false
set_option linter.unusedVariables false
set_option linter.unusedSimpArgs false
namespace Verif.Pcore.Fn

variable {T : Type}

theorem types?_map : ∀ ts : List T, types? (ts.map .ty) = some ts
  | [] => rfl
  | t :: ts => by rw [List.map_cons, types?, types?_map ts]; rfl

theorem reverse_eq {α : Type} {l : List α} {x : α} {r : List α} (h : l.reverse = x :: r) : l = r.reverse ++ [x] := by
  have := congrArg List.reverse h
  simpa using this

theorem tuple_types (ts : List T) (h : ts ≠ []) : tupleFromArgs (ts.map .ty) = some (ts, false) := by
  unfold tupleFromArgs
  cases hr : ts.reverse with
  | nil => exact absurd (List.reverse_eq_nil_iff.1 hr) h
  | cons x r =>
    rw [← List.map_reverse, hr, List.map_cons]
    simp only [Arg.int?]
    rw [tupleOf, types?_map]
    simp

theorem growSizes_types (ts : List T) : growSizes (ts.map .ty) = ts.map .ty := by
  unfold growSizes
  rw [← List.map_reverse]
  cases hr : ts.reverse with
  | nil => rw [List.reverse_eq_nil_iff.1 hr]; rfl
  | cons x r => rfl

theorem moveBlock_types (isFn : T → Bool) (ts : List T) (h : ts ≠ []) : moveBlock isFn (ts.map .ty) = some ((blockFirst isFn ts).map .ty) := by
  unfold moveBlock blockFirst
  rw [← List.map_reverse]
  cases hr : ts.reverse with
  | nil => exact absurd (List.reverse_eq_nil_iff.1 hr) h
  | cons b r =>
    have ht := reverse_eq hr
    rw [List.map_cons]
    cases r with
    | nil => subst ht; simp
    | cons x r =>
      dsimp only
      rw [List.length_map]
      have hl : ts.length > 1 := by rw [ht]; simp
      by_cases hb : isFn b = true
      · rw [if_pos ⟨hb, hl⟩, if_pos hb, ← List.map_reverse, growSizes_types]; rfl
      · rw [if_neg fun h => hb h.1, if_neg hb]

theorem blockFirst_ne (isFn : T → Bool) {ts : List T} (h : ts ≠ []) : blockFirst isFn ts ≠ [] := by
  unfold blockFirst
  split
  · split
    · simp
    · exact h
  · exact h

theorem fn_types (isFn : T → Bool) (ts : List T) (h : ts ≠ []) (rs : List T) :
    callable.fn isFn (ts.map .ty) rs = some ⟨blockFirst isFn ts, false, rs⟩ := by
  unfold callable.fn
  rw [moveBlock_types isFn ts h, Option.bind_some, tuple_types _ (blockFirst_ne isFn h)]
  rfl

theorem callable_types (isFn : T → Bool) (ts : List T) : callable isFn (ts.map .ty) = callable.fn isFn (ts.map .ty) [] := by
  unfold callable
  split
  · rename_i h; cases ts with
    | nil => cases h
    | cons t ts => simp at h
  · rename_i h; cases ts with
    | nil => cases h
    | cons t ts => simp at h
  · rfl

/-- **C114, parameters.**  `Callable[T1, …, Tn]` is the type of the functions with these parameters and no result, and with the block, if there is one,
before the others. -/
theorem C114_params (isFn : T → Bool) {ts : List T} (h : ts ≠ []) : callable isFn (ts.map .ty) = some ⟨blockFirst isFn ts, false, []⟩ := by
  rw [callable_types, fn_types isFn ts h]

/-- `Callable[String, Integer, Callable]` with the types 1, 2 and 0, of which 0 is a function type -/
example : callable (fun t : Nat => t == 0) [.ty 1, .ty 2, .ty 0] = some ⟨[0, 1, 2], false, []⟩ ∧ callable (fun t : Nat => t == 0) [.ty 0] = some ⟨[0], false, []⟩ :=
  ⟨C114_params _ (ts := [1, 2, 0]) (by simp), C114_params _ (ts := [0]) (by simp)⟩

/-- **C114, results.**  `Callable[[T1, …, Tn], R]` is the type of the functions that also have a result of the type `R`; an `R` that is not a type is
refused. -/
theorem C114_returns (isFn : T → Bool) {ts : List T} (h : ts ≠ []) (r : Arg T) :
    callable isFn [.arr (ts.map .ty), r] = match r with
      | .ty r => some ⟨blockFirst isFn ts, false, [r]⟩
      | _ => none := by
  cases r <;> first | rfl | exact fn_types isFn ts h _

example : callable (fun t : Nat => t == 0) [.arr [.ty 1, .ty 0], .ty 3] = some ⟨[0, 1], false, [3]⟩ ∧ callable (fun t : Nat => t == 0) [.arr [.ty 1, .ty 0], .int 3] = none :=
  ⟨C114_returns _ (ts := [1, 0]) (by simp) (.ty 3), C114_returns _ (ts := [1, 0]) (by simp) (.int 3)⟩

/-! ## Sizes -/

theorem tuple_sizes (ts : List T) (h : ts ≠ []) {lo hi : BitVec 64} (h1 : lo ≠ -1) (h2 : hi ≠ -1) :
    tupleFromArgs (ts.map .ty ++ [.int lo, .int hi]) = some (ts, !decide (lo.toInt = ts.length ∧ lo.toInt = hi.toInt)) := by
  unfold tupleFromArgs
  simp only [List.reverse_append, List.reverse_cons, List.reverse_nil, List.nil_append, List.cons_append, Arg.int?, if_neg h1, if_neg h2, List.reverse_reverse]
  rw [tupleOf, types?_map, Option.bind_some, List.length_map]
  by_cases hc : lo.toInt = ts.length ∧ lo.toInt = hi.toInt
  · rw [if_pos hc, decide_eq_true hc]; rfl
  · rw [if_neg hc]
    cases ts with
    | nil => exact absurd rfl h
    | cons t ts => simp only [List.isEmpty_cons, Bool.false_eq_true, if_false, hc, decide_false, Bool.not_false]

theorem takes_all (f : FnType T) (hf : f.params ≠ []) (lo hi : Nat) : (f.variadic = !decide (lo = f.params.length ∧ lo = hi)) →
    ((∀ k, f.Takes k ↔ lo ≤ k ∧ k ≤ hi) ↔ lo = f.params.length ∧ hi = lo) := by
  intro hv
  unfold FnType.Takes
  constructor
  · intro h
    by_cases hc : lo = f.params.length ∧ lo = hi
    · exact ⟨hc.1, hc.2.symm⟩
    · exfalso
      rw [hv] at h
      have := h (f.params.length + hi + 1)
      simp [hc] at this
      omega
  · rintro ⟨h1, rfl⟩ k
    rw [hv]
    simp [h1]
    omega

theorem nat_size {n : Nat} (h : n < 2 ^ 63) : (BitVec.ofNat 64 n).toInt = n ∧ BitVec.ofNat 64 n ≠ -1 := by
  have h1 : (BitVec.ofNat 64 n).toInt = n := by
    rw [BitVec.toInt_ofNat', Int.bmod_def]
    have : ((n : Int) % (2 ^ 64 : Nat)) = n := by omega
    rw [this]; simp; omega
  refine ⟨h1, fun h2 => ?_⟩
  rw [h2] at h1
  have : (-1 : BitVec 64).toInt = -1 := by decide
  omega

/-- **C114, sizes.**  `Callable[T1, …, Tn, lo, hi]` is a type of functions with the parameters `T1, …, Tn`, but of functions that take exactly `lo` to `hi`
arguments only if `lo` and `hi` are `n`.  The claim is that it always is. -/
theorem C114_sizes_partial (isFn : T → Bool) {ts : List T} (h : ts ≠ []) {lo hi : Nat} (h1 : lo < 2 ^ 63) (h2 : hi < 2 ^ 63) :
    ∃ f, callable isFn (ts.map .ty ++ [.int (.ofNat 64 lo), .int (.ofNat 64 hi)]) = some f ∧ f.params = ts ∧ f.returns = [] ∧
      ((∀ k, f.Takes k ↔ lo ≤ k ∧ k ≤ hi) ↔ lo = ts.length ∧ hi = lo) := by
  refine ⟨⟨ts, !decide (lo = ts.length ∧ lo = hi), []⟩, ?_, rfl, rfl, takes_all _ h lo hi rfl⟩
  have ha : callable isFn (ts.map .ty ++ [.int (.ofNat 64 lo), .int (.ofNat 64 hi)]) = callable.fn isFn (ts.map .ty ++ [.int (.ofNat 64 lo), .int (.ofNat 64 hi)]) [] := by
    obtain ⟨t, ts, rfl⟩ := List.exists_cons_of_ne_nil h
    rfl
  have hm : moveBlock isFn (ts.map .ty ++ [.int (.ofNat 64 lo), .int (.ofNat 64 hi)]) = some (ts.map .ty ++ [.int (.ofNat 64 lo), .int (.ofNat 64 hi)]) := by
    unfold moveBlock
    simp
  rw [ha, callable.fn, hm, Option.bind_some, tuple_sizes ts h (nat_size h1).2 (nat_size h2).2, (nat_size h1).1, (nat_size h2).1]
  simp only [Option.map_some, Int.natCast_inj]

/-- `Callable[String, 1, 3]` takes no arguments too. -/
example : ∃ f, callable (fun t : Nat => t == 0) [.ty 1, .int 1, .int 3] = some f ∧ ¬ ∀ k, f.Takes k ↔ 1 ≤ k ∧ k ≤ 3 := by
  obtain ⟨f, h1, _, _, h2⟩ := C114_sizes_partial (fun t : Nat => t == 0) (ts := [1]) (by simp) (lo := 1) (hi := 3) (by omega) (by omega)
  exact ⟨f, h1, fun h => by have := h2.1 h; omega⟩

/-- **C114, one size.**  `Callable[T1, …, Tn, lo]` is a type of functions with the parameters `T1, …, Tn` that take any number of arguments from `n - 1` on, whatever
`lo` is; the claim is from `lo` on. -/
theorem C114_one_partial (isFn : T → Bool) {ts : List T} (h : ts ≠ []) {lo : Nat} (h1 : lo < 2 ^ 63 - 1) :
    ∃ f, callable isFn (ts.map .ty ++ [.int (.ofNat 64 lo)]) = some f ∧ f.params = ts ∧ f.returns = [] ∧ (∀ k, f.Takes k ↔ ts.length ≤ k + 1) ∧
      ((∀ k, f.Takes k ↔ lo ≤ k) ↔ lo + 1 = ts.length) := by
  refine ⟨⟨ts, true, []⟩, ?_, rfl, rfl, fun k => by simp [FnType.Takes], ?_⟩
  · have ha : callable isFn (ts.map .ty ++ [.int (.ofNat 64 lo)]) = callable.fn isFn (ts.map .ty ++ [.int (.ofNat 64 lo)]) [] := by
      obtain ⟨t, ts, rfl⟩ := List.exists_cons_of_ne_nil h
      rfl
    have hm : moveBlock isFn (ts.map .ty ++ [.int (.ofNat 64 lo)]) = some (ts.map .ty ++ [.int (.ofNat 64 lo)]) := by
      unfold moveBlock
      simp
    rw [ha, callable.fn, hm, Option.bind_some]
    obtain ⟨init, l, rfl⟩ : ∃ init l, ts = init ++ [l] := ⟨ts.dropLast, ts.getLast h, (List.dropLast_concat_getLast h).symm⟩
    unfold tupleFromArgs
    have hr : ((init ++ [l]).map .ty ++ [.int (.ofNat 64 lo)] : List (Arg T)).reverse = .int (.ofNat 64 lo) :: .ty l :: (init.map .ty).reverse := by simp
    rw [hr]
    simp only [Arg.int?]
    rw [if_neg (nat_size (by omega)).2, (nat_size (by omega)).1]
    have hb : (.ty l :: (init.map .ty).reverse : List (Arg T)).reverse = (init ++ [l]).map .ty := by simp
    rw [hb, tupleOf, types?_map, Option.bind_some, if_neg (by omega)]
    simp
  · have h0 : 0 < ts.length := List.length_pos_iff.2 h
    simp only [FnType.Takes, if_true]
    constructor
    · intro hk
      have h1 := hk lo
      have h2 := hk (ts.length - 1)
      omega
    · intro e k
      omega

/-- `Callable[String, Integer, 1]`, and `Callable[String, 1]`, which takes no arguments too -/
example : ∃ f, callable (fun t : Nat => t == 0) [.ty 1, .int 1] = some f ∧ f.Takes 0 := by
  obtain ⟨f, h1, _, _, h2, _⟩ := C114_one_partial (fun t : Nat => t == 0) (ts := [1]) (by simp) (lo := 1) (by omega)
  exact ⟨f, h1, (h2 0).2 (by simp)⟩

theorem grow_two (ts : List T) (h : ts ≠ []) {lo hi : BitVec 64} (h2 : hi ≠ -1) :
    growSizes (ts.map .ty ++ [.int lo, .int hi]) = ts.map .ty ++ [.int (lo + 1), .int (hi + 1)] := by
  unfold growSizes
  have hl : 0 < ts.length := List.length_pos_iff.2 h
  simp [Arg.int?, h2, hl]
  exact h2

/-- **C114, sizes with a block.**  With a block `B` after the sizes, the block is one more argument, and the sizes are counted without it; again they are
what the functions take only if they are the number of the types. -/
theorem C114_block_partial (isFn : T → Bool) {ts : List T} (h : ts ≠ []) {b : T} (hb : isFn b = true) {lo hi : Nat} (h1 : lo + 1 < 2 ^ 63) (h2 : hi + 1 < 2 ^ 63) :
    ∃ f, callable isFn (ts.map .ty ++ [.int (.ofNat 64 lo), .int (.ofNat 64 hi), .ty b]) = some f ∧ f.params = b :: ts ∧ f.returns = [] ∧
      ((∀ k, f.Takes k ↔ lo + 1 ≤ k ∧ k ≤ hi + 1) ↔ lo = ts.length ∧ hi = lo) := by
  refine ⟨⟨b :: ts, !decide (lo + 1 = (b :: ts).length ∧ lo + 1 = hi + 1), []⟩, ?_, rfl, rfl, ?_⟩
  · have ha : callable isFn (ts.map .ty ++ [.int (.ofNat 64 lo), .int (.ofNat 64 hi), .ty b]) =
        callable.fn isFn (ts.map .ty ++ [.int (.ofNat 64 lo), .int (.ofNat 64 hi), .ty b]) [] := by
      obtain ⟨t, ts, rfl⟩ := List.exists_cons_of_ne_nil h
      rfl
    have hm : moveBlock isFn (ts.map .ty ++ [.int (.ofNat 64 lo), .int (.ofNat 64 hi), .ty b]) =
        some ((b :: ts).map .ty ++ [.int (.ofNat 64 (lo + 1)), .int (.ofNat 64 (hi + 1))]) := by
      have hr : (ts.map .ty ++ [.int (.ofNat 64 lo), .int (.ofNat 64 hi), .ty b] : List (Arg T)).reverse =
          .ty b :: (ts.map .ty ++ [.int (.ofNat 64 lo), .int (.ofNat 64 hi)] : List (Arg T)).reverse := by simp
      unfold moveBlock
      rw [hr]
      dsimp only
      rw [if_pos ⟨hb, by simp⟩, List.reverse_reverse, grow_two ts h (nat_size (n := hi) (by omega)).2, BitVec.ofNat_add, BitVec.ofNat_add]
      rfl
    rw [ha, callable.fn, hm, Option.bind_some, tuple_sizes (b :: ts) (by simp) (nat_size h1).2 (nat_size h2).2, (nat_size h1).1, (nat_size h2).1]
    simp only [Option.map_some, Int.natCast_inj]
  · rw [takes_all _ (by simp) (lo + 1) (hi + 1) rfl]
    simp

/-- `Callable[String, 1, 1, Callable]` takes the block and a string. -/
example : ∃ f, callable (fun t : Nat => t == 0) [.ty 1, .int 1, .int 1, .ty 0] = some f ∧ f.params = [0, 1] ∧ ∀ k, f.Takes k ↔ 2 ≤ k ∧ k ≤ 2 := by
  obtain ⟨f, h1, h2, _, h3⟩ := C114_block_partial (fun t : Nat => t == 0) (ts := [1]) (by simp) (b := 0) rfl (lo := 1) (hi := 1) (by omega) (by omega)
  exact ⟨f, h1, h2, h3.2 ⟨rfl, rfl⟩⟩

/-- **C114, no parameters.**  `Callable[0, 0]` and `Callable[[0, 0], R]` are the types of the functions without parameters. -/
theorem C114_none (isFn : T → Bool) (r : T) :
    callable isFn [.int 0, .int 0] = some ⟨[], false, []⟩ ∧ callable isFn [.arr [.int 0, .int 0], .ty r] = some ⟨[], false, [r]⟩ := ⟨rfl, rfl⟩

/-- Written as lists without elements they fail with a runtime error. -/
theorem C114_empty_violated (isFn : T → Bool) (r : T) : callable isFn [] = none ∧ callable isFn [.arr [], .ty r] = none := ⟨rfl, rfl⟩

/-- `Callable[0, 0, B]` takes any number of blocks, and not exactly one. -/
theorem C114_block_violated (isFn : T → Bool) {b : T} (hb : isFn b = true) :
    ∃ f, callable isFn [.int 0, .int 0, .ty b] = some f ∧ ∀ k, f.Takes k := by
  refine ⟨⟨[b], true, []⟩, ?_, fun k => by simp [FnType.Takes]⟩
  unfold callable
  simp only [callable.fn, moveBlock, List.reverse_cons, List.reverse_nil, List.nil_append, List.cons_append, hb, List.length_cons, List.length_nil]
  rfl

/-! ## Nothing is lost -/

theorem types?_some : ∀ {as : List (Arg T)} {ts : List T}, types? as = some ts → as = ts.map .ty
  | [], _, h => by cases h; rfl
  | .ty t :: r, ts, h => by
    rw [types?] at h
    obtain ⟨us, h1, rfl⟩ := Option.map_eq_some_iff.1 h
    rw [types?_some h1]; rfl
  | .int _ :: _, _, h | .dflt :: _, _, h | .arr _ :: _, _, h | .other :: _, _, h => by cases h

theorem tupleOf_some {as : List (Arg T)} {a b : Int} {p : List T × Bool} (h : tupleOf as a b = some p) : as = p.1.map .ty := by
  unfold tupleOf at h
  obtain ⟨ts, h1, h2⟩ := Option.bind_eq_some_iff.1 h
  rw [types?_some h1]
  split at h2
  · cases h2; rfl
  · split at h2
    · cases h2
    · cases h2; rfl

/-- What two lists of arguments have in common, if sizes do not count -/
def Same (as bs : List (Arg T)) : Prop := as.filterMap Arg.ty? = bs.filterMap Arg.ty? ∧ ((∀ a ∈ bs, a.Fine) → ∀ a ∈ as, a.Fine)

theorem filterMap_types (ts : List T) : (ts.map Arg.ty).filterMap Arg.ty? = ts := by
  induction ts with
  | nil => rfl
  | cons t ts ih => rw [List.map_cons, List.filterMap_cons_some (f := Arg.ty?) (a := .ty t) (b := t) rfl, ih]

theorem int?_fine {x : Arg T} {d n : BitVec 64} (h : x.int? d = some n) : x.ty? = none ∧ x.Fine := by
  cases x <;> simp_all [Arg.int?, Arg.ty?, Arg.Fine]

theorem fine_types {ts : List T} {a : Arg T} (h : a ∈ ts.map Arg.ty) : a.Fine := by
  obtain ⟨t, _, rfl⟩ := List.mem_map.1 h
  trivial

theorem tupleFromArgs_some {args : List (Arg T)} {p : List T × Bool} (h : tupleFromArgs args = some p) :
    args.filterMap Arg.ty? = p.1 ∧ ∀ a ∈ args, a.Fine := by
  unfold tupleFromArgs at h
  split at h
  · cases h
  · rename_i x r hr
    have ha := reverse_eq hr
    split at h
    · rw [tupleOf_some h]
      exact ⟨filterMap_types _, fun a => fine_types⟩
    · rename_i n hx
      obtain ⟨x1, x2⟩ := int?_fine hx
      split at h
      · cases h
      · rename_i y r'
        split at h
        · rename_i m hy
          obtain ⟨y1, y2⟩ := int?_fine hy
          have := tupleOf_some h
          subst ha
          rw [List.reverse_cons, this]
          refine ⟨by rw [List.filterMap_append, List.filterMap_append, filterMap_types]; simp [x1, y1], fun a hm => ?_⟩
          simp only [List.mem_append, List.mem_singleton] at hm
          rcases hm with (hm | rfl) | rfl
          · exact fine_types hm
          · exact y2
          · exact x2
        · have := tupleOf_some h
          subst ha
          rw [this]
          refine ⟨by rw [List.filterMap_append, filterMap_types]; simp [x1], fun a hm => ?_⟩
          simp only [List.mem_append, List.mem_singleton] at hm
          rcases hm with hm | rfl
          · exact fine_types hm
          · exact x2

theorem growSizes_same (init : List (Arg T)) : Same init (growSizes init) := by
  unfold growSizes
  split
  · rename_i h; rw [List.reverse_eq_nil_iff.1 h]; exact ⟨rfl, id⟩
  · rename_i x r hr
    have ha := reverse_eq hr
    split
    · exact ⟨rfl, id⟩
    · rename_i n hx
      obtain ⟨x1, x2⟩ := int?_fine hx
      have hx' : (if n = -1 then x else Arg.int (n + 1)).ty? = none := by
        split
        · exact x1
        · rfl
      dsimp only
      revert hx'
      generalize (if n = -1 then x else Arg.int (n + 1)) = x'
      intro hx'
      split
      · subst ha
        cases r with
        | nil => exact ⟨by simp [hx', x1], fun _ a hm => by simp at hm; subst hm; exact x2⟩
        | cons y r2 =>
          dsimp only
          split
          · rename_i m hy
            obtain ⟨y1, y2⟩ := int?_fine hy
            refine ⟨by simp [List.filterMap_append, List.filterMap_cons, hx', x1, y1, show ∀ n, (Arg.int n : Arg T).ty? = none from fun _ => rfl], fun hf a hm => ?_⟩
            simp only [List.reverse_cons, List.mem_append, List.mem_singleton, List.mem_reverse] at hm
            rcases hm with (hm | rfl) | rfl
            · exact hf a (by simp [hm])
            · exact y2
            · exact x2
          · refine ⟨by simp [List.filterMap_append, List.filterMap_cons, hx', x1], fun hf a hm => ?_⟩
            simp only [List.reverse_cons, List.mem_append, List.mem_singleton, List.mem_reverse] at hm
            rcases hm with (hm | rfl) | rfl
            · exact hf a (by simp [hm])
            · exact hf a (by simp)
            · exact x2
      · subst ha
        refine ⟨by simp [List.filterMap_append, List.filterMap_cons, hx', x1], fun hf a hm => ?_⟩
        simp only [List.mem_append, List.mem_singleton, List.mem_reverse] at hm
        rcases hm with hm | rfl
        · exact hf a (by simp [hm])
        · exact x2

/-- **C114, nothing is lost.**  What is read as a type of functions has types and sizes between the brackets and nothing else, and its parameters are
these types, in their order but for the block. -/
theorem C114_all (isFn : T → Bool) {args : List (Arg T)} (h2 : ∀ ps r, args ≠ [.arr ps, r]) {f : FnType T} (h : callable isFn args = some f) :
    (∀ a ∈ args, a.Fine) ∧ f.returns = [] ∧
    (f.params = args.filterMap Arg.ty? ∨ ∃ b ts, isFn b = true ∧ args.filterMap Arg.ty? = ts ++ [b] ∧ f.params = b :: ts) := by
  have hf : callable.fn isFn args [] = some f := by
    unfold callable at h
    split at h
    · exact absurd rfl (h2 _ _)
    · cases h
    · exact h
  unfold callable.fn at hf
  obtain ⟨p, hp, rfl⟩ := Option.map_eq_some_iff.1 hf
  obtain ⟨as, h3, h4⟩ := Option.bind_eq_some_iff.1 hp
  obtain ⟨h5, h6⟩ := tupleFromArgs_some h4
  unfold moveBlock at h3
  split at h3
  · cases h3
  · rename_i b r hr
    have ha := reverse_eq hr
    split at h3
    · rename_i hb
      cases h3
      have hs := growSizes_same r.reverse
      refine ⟨fun a hm => ?_, rfl, .inr ⟨b, r.reverse.filterMap Arg.ty?, hb.1, ?_, ?_⟩⟩
      · rw [ha] at hm
        rcases List.mem_append.1 hm with hm | hm
        · exact hs.2 (fun a ha => h6 a (List.mem_cons_of_mem _ ha)) a hm
        · rw [List.mem_singleton.1 hm]; trivial
      · rw [ha, List.filterMap_append]; rfl
      · rw [← h5, List.filterMap_cons_some (f := Arg.ty?) (a := .ty b) (b := b) rfl, hs.1]
    · cases h3; exact ⟨h6, rfl, .inl h5.symm⟩
  · cases h3; exact ⟨h6, rfl, .inl h5.symm⟩

/-- `Callable[String, 1, default, Callable]` -/
example : callable (fun t : Nat => t == 0) [.ty 1, .int 1, .dflt, .ty 0] = some ⟨[0, 1], false, []⟩ := by decide +kernel

end Verif.Pcore.Fn
