import Verif.Types.RecEqEq
/-!
# C82: Equals and HashCode of types that contain themselves
-/
set_option autoImplicit false
set_option linter.unusedVariables false
set_option linter.unusedSimpArgs false

namespace Verif.Types.RecEq
open Verif.Value

/-! ### Copies -/

theorem keyRefs_rename {f : Nat → Nat} (x : Node) : (x.rename f).keyRefs = x.keyRefs.map f := by
  cases x <;> simp [Node.rename, Node.keyRefs, Node.refs]

theorem codes_map {r r' : Nat → Code} {f : Nat → Nat} : (ts : List Nat) → (∀ t ∈ ts, r' (f t) = r t) → codes r' (ts.map f) = codes r ts
  | [], _ => rfl
  | t :: ts, h => by
    rw [List.map_cons, codes, codes, h t (.head _), codes_map ts fun t ht => h t (.tail _ ht)]

theorem deepHash_rename {T U : Types} {r r' : Nat → Code} {f : Nat → Nat} {x : Node} (h : ∀ t ∈ x.refs, r' (f t) = r t ∧ isAny U (f t) = isAny T t) :
    deepHash U r' (x.rename f) = deepHash T r x := by
  cases x with
  | leaf t => rfl
  | not t => rfl
  | arr e lo hi => simp only [Node.rename, deepHash, (h e (.head _)).1, (h e (.head _)).2]
  | tuple ts var => simp only [Node.rename, deepHash, codes_map ts fun t ht => (h t ht).1]
  | map k v lo hi =>
    simp only [Node.rename, deepHash, (h k (.head _)).1, (h k (.head _)).2, (h v (.tail _ (.head _))).2]
  | struct add fs =>
    have e1 : (fs.map fun e => (e.1, e.2.1, f e.2.2)).map (fun e => e.2.2) = (fs.map fun e => e.2.2).map f := by simp
    have e2 : (fs.map fun e => (e.1, e.2.1, f e.2.2)).map (fun e => e.2.1) = fs.map fun e => e.2.1 := by simp
    have e3 : (fs.map fun e => (e.1, e.2.1, f e.2.2)).map (fun e => exactHash e.1) = fs.map fun e => exactHash e.1 := by simp
    simp only [Node.rename, deepHash, e1, e2, e3]
    rw [codes_map (fs.map fun e : Val × Bool × Nat => e.2.2) fun t ht => (h t ht).1]
  | allOf ts => simp only [Node.rename, deepHash, codes_map ts fun t ht => (h t ht).1]
  | anyOf ts => simp only [Node.rename, deepHash, codes_map ts fun t ht => (h t ht).1]
  | oneOf ts => simp only [Node.rename, deepHash, codes_map ts fun t ht => (h t ht).1]
  | sens t => simp only [Node.rename, deepHash, (h t (.head _)).1]

theorem rename_deep {f : Nat → Nat} (x : Node) : (x.rename f).isDeep = x.isDeep := by cases x <;> rfl
theorem rename_tuple {f : Nat → Nat} (x : Node) : (x.rename f).isTuple = x.isTuple := by cases x <;> rfl

theorem copy_any {T U : Types} {f : Nat → Nat} (hc : Copy T U f) {t : Nat} {x : Node} (ht : T[t]? = some x) : isAny U (f t) = isAny T t := by
  unfold isAny
  rw [hc.node t x ht, ht]
  cases x <;> rfl

theorem hash_copy {T U : Types} (hT : Closed T) {f : Nat → Nat} (hc : Copy T U f) : (n : Nat) → (g : Option (List Nat)) → (t : Nat) → (x : Node) →
    T[t]? = some x → (∀ a ∈ g.getD [], a < T.length) → hashCode U n (g.map (List.map f)) (f t) = hashCode T n g t
  | 0, g, t, x, ht, hl => rfl
  | n + 1, g, t, x, ht, hl => by
    have hu := hc.node t x ht
    cases hd : x.isDeep
    · cases x with
      | leaf s => rw [hash_leaf ht, hash_leaf hu]
      | not u =>
        obtain ⟨y, hy⟩ := hT.ref ht (u := u) (.head _)
        rw [hash_not ht, hash_not hu]
        have := hash_copy hT hc n none u y hy fun a ha => absurd ha List.not_mem_nil
        rw [show hashCode U n none (f u) = hashCode T n none u from this]
      | _ => cases hd
    · have hm : f t ∈ (g.map (List.map f)).getD [] ↔ t ∈ g.getD [] := by
        cases g with
        | none => simp
        | some s =>
          simp only [Option.map_some, Option.getD_some, List.mem_map]
          constructor
          · rintro ⟨a, ha, e⟩
            rw [hc.apart t a (lt_of_get ht) (hl a ha) e.symm]; exact ha
          · exact fun h => ⟨t, h, rfl⟩
      by_cases hs : t ∈ g.getD []
      · rw [hash_hit ht hd hs, hash_hit hu (by rw [rename_deep]; exact hd) (hm.2 hs)]
      · rw [hash_deep ht hd hs, hash_deep hu (by rw [rename_deep]; exact hd) fun h => hs (hm.1 h)]
        refine deepHash_rename fun u hr => ?_
        obtain ⟨y, hy⟩ := hT.ref ht hr
        refine ⟨?_, copy_any hc hy⟩
        have hdown : some (down (g.map (List.map f)) (f t) (x.rename f)) = (some (down g t x)).map (List.map f) := by
          unfold down
          rw [rename_tuple]
          cases g <;> cases x.isTuple <;> rfl
        rw [hdown]
        refine hash_copy hT hc n (some (down g t x)) u y hy fun a ha => ?_
        have := down_sub a ha
        cases this with
        | head => exact lt_of_get ht
        | tail _ h => exact hl a h

theorem copy_same {T U : Types} (hT : Closed T) {f g : Nat → Nat} (hf : Copy T U f) (hg : Copy T U g) {t : Nat} {x : Node} (ht : T[t]? = some x) :
    Same U (f t) (g t) := by
  refine ⟨fun c d => ∃ t x, T[t]? = some x ∧ c = f t ∧ d = g t, ⟨t, x, ht, rfl, rfl⟩, ?_⟩
  rintro c d ⟨t, x, ht, rfl, rfl⟩
  refine ⟨_, _, hf.node t x ht, hg.node t x ht, ?_⟩
  have hx := List.mem_of_getElem? ht
  have hr : ∀ u ∈ x.refs, ∃ t x, T[t]? = some x ∧ f u = f t ∧ g u = g t := fun u hu => by
    obtain ⟨y, hy⟩ := hT.ref ht hu
    exact ⟨u, y, hy, rfl, rfl⟩
  have hl : ∀ us : List Nat, (∀ u ∈ us, ∃ t x, T[t]? = some x ∧ f u = f t ∧ g u = g t) →
      List.Forall₂ (fun c d => ∃ t x, T[t]? = some x ∧ c = f t ∧ d = g t) (us.map f) (us.map g) := by
    intro us
    induction us with
    | nil => exact fun _ => .nil
    | cons u us ih => exact fun h => .cons (h u (.head _)) (ih fun u hu => h u (.tail _ hu))
  cases x with
  | leaf t => exact .leaf (plain_refl (hT.leaves t hx))
  | arr e lo hi => exact .arr (hr _ (.head _))
  | tuple ts var => exact .tuple (hl _ hr)
  | map k v lo hi => exact .map (hr _ (.head _)) (hr _ (.tail _ (.head _)))
  | struct add fs =>
    refine .struct ?_
    have hk := hT.keys _ hx
    clear ht hx hl
    induction fs with
    | nil => exact .nil
    | cons e fs ih =>
      exact .cons ⟨wf_refl (hk e.1 (.head _)), rfl, hr _ (.head _)⟩ (ih (fun u hu => hr u (.tail _ hu)) fun k hm => hk k (.tail _ hm))
  | allOf ts => exact .allOf (hl _ hr)
  | anyOf ts => exact .anyOf (hl _ hr)
  | oneOf ts => exact .oneOf (hl _ hr)
  | not t => exact .not (hr _ (.head _))
  | sens t => exact .sens (hr _ (.head _))

/-! ### Examples of types -/

namespace Ex

/-- `x=[]x`, and `[][]int` -/
def list : Types := [.arr 0 0 maxInt, .arr 2 0 maxInt, .arr 3 0 maxInt, .leaf .intT]

/-- `x=[]x`, and `[]x` -/
def list' : Types := [.arr 0 0 maxInt, .arr 0 0 maxInt]

/-- `x=[1,5][2,5]x`, and `y=[1,5][2,5][1,5]y` -/
def beat : Types := [.arr 1 1 5, .arr 0 2 5, .arr 3 1 5, .arr 4 2 5, .arr 2 1 5]

/-- `int`, `string`, `y=int|[](string|y)`, and `int|[](string|(int|[]string))` -/
def alt : Types :=
  [.leaf .intT, .leaf .strT, .anyOf [0, 3], .arr 4 0 maxInt, .anyOf [1, 2],
   .anyOf [0, 6], .arr 7 0 maxInt, .anyOf [1, 8], .anyOf [0, 9], .arr 1 0 maxInt]

/-- `x=[]!x`, and the same again -/
def neg : Types := [.arr 1 0 maxInt, .not 0, .arr 3 0 maxInt, .not 2]

/-- `files=map[string](int|files)`, and the same again -/
def files : Types := [.map 1 2 0 maxInt, .leaf .strT, .anyOf [3, 0], .leaf .intT, .map 5 6 0 maxInt, .leaf .strT, .anyOf [7, 4], .leaf .intT]

theorem closed_of {T : Types} (h1 : ∀ x ∈ T, ∀ t ∈ x.refs, t < T.length) (h2 : ∀ x ∈ T, x.keys = [] ∧ ∀ t, x = .leaf t → Plain t) : Closed T where
  refs := h1
  leaves := fun t ht => (h2 _ ht).2 t rfl
  keys := fun x hx k hk => by rw [(h2 x hx).1] at hk; cases hk

theorem list_closed : Closed list := closed_of (by decide) (by simp [list, Node.keys, Plain])
theorem list'_closed : Closed list' := closed_of (by decide) (by simp [list', Node.keys, Plain])
theorem beat_closed : Closed beat := closed_of (by decide) (by simp [beat, Node.keys, Plain])
theorem alt_closed : Closed alt := closed_of (by decide) (by simp [alt, Node.keys, Plain])
theorem neg_closed : Closed neg := closed_of (by decide) (by simp [neg, Node.keys, Plain])
theorem files_closed : Closed files := closed_of (by decide) (by simp [files, Node.keys, Plain])

/-- Without a negation there is none that contains itself. -/
theorem no_neg {T : Types} {refs : Node → List Nat} {t : Nat} (h : ∀ x ∈ T, ∀ u, x ≠ .not u) : ¬ NegatesItself T refs t := by
  rintro ⟨u, w, _, h2, _⟩
  exact h _ (List.mem_of_getElem? h2) w rfl

end Ex

/-! ### C82 -/

/-- **C82, HashCode returns.**  `HashCode` of a type returns exactly if the type has no negation in it that contains itself.  (The value types
of maps do not count, as they are not looked at.) -/
theorem C82_hash_returns {T : Types} (hT : Closed T) {t : Nat} (ht : t < T.length) :
    (∃ h, HashReturns T t h) ↔ ¬ NegatesItself T Node.keyRefs t := by
  constructor
  · rintro ⟨h, n, hn⟩ ⟨u, w, h1, h2, h3⟩
    have := hn n (Nat.le_refl n)
    rw [hash_none h2 h3 n none t h1.simple] at this
    cases this
  · intro hneg
    obtain ⟨n, h, hh⟩ := hash_total hT _ t _ (List.getElem?_eq_getElem ht) (Nat.lt_succ_self _) hneg
    exact ⟨h, hashReturns hh⟩

example : ∃ h, HashReturns Ex.files 0 h :=
  (C82_hash_returns Ex.files_closed (by decide)).2 (Ex.no_neg (by simp [Ex.files]))

/-- **C82, HashCode does not return.**  A type with a negation in it that contains itself has no hash code: the stack overflows.  The parser
computes the hash code of each type that it gives a name to (internal/alias.go:175). -/
theorem C82_hash_diverges {T : Types} {t : Nat} (h : NegatesItself T Node.keyRefs t) : HashDiverges T t := by
  obtain ⟨u, w, h1, h2, h3⟩ := h
  exact fun n => hash_none h2 h3 n none t h1.simple

/-- `x=[]!x` -/
example : HashDiverges Ex.neg 0 :=
  C82_hash_diverges ⟨1, 0, .step (x := .arr 1 0 maxInt) rfl (.head _) (.here _), rfl, .step (x := .arr 1 0 maxInt) rfl (.head _) (.here _)⟩

/-- **C82, Equals returns.**  `a.Equals(b)` returns if one of the two has no negation in it that contains itself. -/
theorem C82_equals_returns {T : Types} (hT : Closed T) {a b : Nat} (ha : a < T.length) (hb : b < T.length)
    (h : ¬ NegatesItself T Node.refs a ∨ ¬ NegatesItself T Node.refs b) : ∃ r, EqReturns T a b r := by
  have hf : Fine T (max (rank T Node.refs a) (rank T Node.refs b)) a ∨ Fine T (max (rank T Node.refs a) (rank T Node.refs b)) b :=
    h.imp (fun h => ⟨Nat.le_max_left _ _, h⟩) fun h => ⟨Nat.le_max_right _ _, h⟩
  obtain ⟨n, r, hr⟩ := eq_total hT _ a b _ _ (List.getElem?_eq_getElem ha) (List.getElem?_eq_getElem hb) hf
  exact ⟨r, eqReturns hr⟩

example : ∃ r, EqReturns Ex.alt 2 5 r := C82_equals_returns Ex.alt_closed (by decide) (by decide) (.inl (Ex.no_neg (by simp [Ex.alt])))

/-- Otherwise it may not return: `x=[]!x` and the same type from another text. -/
theorem C82_equals_diverges : ∃ T a b, Closed T ∧ Same T a b ∧ EqDiverges T a b := by
  refine ⟨Ex.neg, 0, 2, Ex.neg_closed, ?_, fun n => ?_⟩
  · refine ⟨fun c d => (c = 0 ∧ d = 2) ∨ (c = 1 ∧ d = 3), .inl ⟨rfl, rfl⟩, ?_⟩
    rintro c d (⟨rfl, rfl⟩ | ⟨rfl, rfl⟩)
    · exact ⟨_, _, rfl, rfl, .arr (.inr ⟨rfl, rfl⟩)⟩
    · exact ⟨_, _, rfl, rfl, .not (.inl ⟨rfl, rfl⟩)⟩
  · have h : ∀ n, equals Ex.neg n none 0 2 = none ∧ equals Ex.neg n (some [0]) 1 3 = none := by
      intro n
      induction n with
      | zero => exact ⟨rfl, rfl⟩
      | succ n ih =>
        refine ⟨?_, ?_⟩
        · rw [eq_deep (x := .arr 1 0 maxInt) (y := .arr 3 0 maxInt) rfl rfl rfl]
          exact ih.2
        · rw [eq_flat (x := .not 0) (y := .not 2) rfl rfl rfl]
          exact ih.1
    exact (h n).1

/-- **C82, types that are the same are equal.**  If nothing tells the types apart when they are written out, then `Equals` returns true,
when it returns. -/
theorem C82_equal {T : Types} (hT : Closed T) {a b : Nat} (h : Same T a b) {r : Bool} (hr : EqReturns T a b r) : r = true := by
  obtain ⟨S, hs, hab, hS⟩ := h.sym hT
  obtain ⟨n, hn⟩ := hr
  exact eq_true hs hS n none a b r hab (hn n (Nat.le_refl n))

/-- `files=map[string](int|files)`, read twice -/
example : EqReturns Ex.files 0 4 true ∧ Same Ex.files 0 4 := by
  refine ⟨eqReturns (n := 9) (by decide +kernel), fun c d => d = c + 4 ∧ c < 4, ⟨rfl, by decide⟩, ?_⟩
  rintro c d ⟨rfl, hc⟩
  match c, hc with
  | 0, _ => exact ⟨_, _, rfl, rfl, .map ⟨rfl, by decide⟩ ⟨rfl, by decide⟩⟩
  | 1, _ => exact ⟨_, _, rfl, rfl, .leaf (by decide +kernel)⟩
  | 2, _ => exact ⟨_, _, rfl, rfl, .anyOf (.cons ⟨rfl, by decide⟩ (.cons ⟨rfl, by decide⟩ .nil))⟩
  | 3, _ => exact ⟨_, _, rfl, rfl, .leaf (by decide +kernel)⟩

/-- **C82, types that are equal are the same.**  This holds if the receiver does not contain itself and has no operands in it; the argument
may be any type.  Missing: receivers that contain themselves (theorems `C82_cut_violated` and `C82_both_violated`) and receivers with operands
(theorem `C82_operands_violated`). -/
theorem C82_partial {T : Types} (hT : Closed T) {a b : Nat} (ha : a < T.length) (hb : b < T.length) (h1 : ¬ ContainsItself T a)
    (h2 : ¬ HasOperands T a) : EqReturns T a b true ↔ Same T a b := by
  constructor
  · rintro ⟨n, hn⟩
    exact eq_same hT ⟨h1, h2, fun s hs => absurd hs List.not_mem_nil⟩ (hn n (Nat.le_refl n))
  · intro h
    obtain ⟨r, hr⟩ := C82_equals_returns hT ha hb (.inl fun ⟨u, w, h3, h4, h5⟩ => h1 ⟨u, w, _, h3, h4, .head _, h5⟩)
    cases C82_equal hT h hr
    exact hr

/-- `[][]int` is not equal to `x=[]x`. -/
example : ¬ Same Ex.list 1 0 := by
  have key : ∀ a b : Nat, Reach Ex.list Node.refs a b → a = 1 ∨ a = 2 ∨ a = 3 → a ≤ b ∧ b ≤ 3 := by
    intro a b h
    induction h with
    | here t => omega
    | step h hu _ ih =>
      rintro (rfl | rfl | rfl) <;> cases h
      · cases List.mem_singleton.1 hu; have := ih (by simp); omega
      · cases List.mem_singleton.1 hu; have := ih (by simp); omega
      · cases hu
  refine fun h => ?_
  have hr : EqReturns Ex.list 1 0 false := eqReturns (n := 9) (by decide +kernel)
  have := (C82_partial Ex.list_closed (by decide) (by decide) ?_ ?_).2 h
  · obtain ⟨n, hn⟩ := hr
    obtain ⟨m, hm⟩ := this
    have h1 := hn (max n m) (Nat.le_max_left _ _)
    rw [hm (max n m) (Nat.le_max_right _ _)] at h1
    cases h1
  · rintro ⟨u, w, x, h1, h2, h3, h4⟩
    have hu := key _ _ h1 (.inl rfl)
    have : u = 1 ∨ u = 2 ∨ u = 3 := by omega
    rcases this with rfl | rfl | rfl <;> cases h2
    · cases List.mem_singleton.1 h3; have := key _ _ h4 (by simp); omega
    · cases List.mem_singleton.1 h3; have := key _ _ h4 (by simp); omega
    · cases h3
  · rintro ⟨u, ts, h1, h2⟩
    have hu := key _ _ h1 (.inl rfl)
    have : u = 1 ∨ u = 2 ∨ u = 3 := by omega
    rcases this with rfl | rfl | rfl <;> rcases h2 with h2 | h2 | h2 <;> cases h2

/-- **C82, copies.**  The same types read twice, from the same text, are equal, and have the same hash codes. -/
theorem C82_copy {T U : Types} (hT : Closed T) (hU : Closed U) {f g : Nat → Nat} (hf : Copy T U f) (hg : Copy T U g) {t : Nat} (ht : t < T.length) :
    Same U (f t) (g t) ∧ (∀ r, EqReturns U (f t) (g t) r → r = true) ∧ ∀ h, HashReturns U (f t) h ↔ HashReturns U (g t) h := by
  have hx := List.getElem?_eq_getElem ht
  have hs := copy_same hT hf hg hx
  refine ⟨hs, fun r => C82_equal hU hs, fun h => ?_⟩
  have e : ∀ n, hashCode U n none (f t) = hashCode U n none (g t) := fun n => by
    have h1 := hash_copy hT hf n none t _ hx fun a ha => absurd ha List.not_mem_nil
    have h2 := hash_copy hT hg n none t _ hx fun a ha => absurd ha List.not_mem_nil
    exact Eq.trans h1 h2.symm
  unfold HashReturns
  simp only [e]

/-- `files=map[string](int|files)`, read twice -/
example : Copy (Ex.files.take 4) Ex.files id ∧ Copy (Ex.files.take 4) Ex.files (· + 4) := by
  refine ⟨⟨?_, fun _ _ _ _ h => h⟩, ⟨?_, fun _ _ _ _ h => Nat.add_right_cancel h⟩⟩ <;>
  · intro t x h
    match t, h with
    | 0, h => cases h; rfl
    | 1, h => cases h; rfl
    | 2, h => cases h; rfl
    | 3, h => cases h; rfl

/-- **C82, violated.**  `x=[]x` is equal to `[][]int`, which is not equal to `x`. -/
theorem C82_cut_violated : ∃ T a b, Closed T ∧ EqReturns T a b true ∧ EqReturns T b a false :=
  ⟨Ex.list, 0, 1, Ex.list_closed, eqReturns (n := 9) (by decide +kernel), eqReturns (n := 9) (by decide +kernel)⟩

/-- **C82, violated.**  `x=[1,5][2,5]x` and `y=[1,5][2,5][1,5]y` are equal in both directions, but they are not the same: at the fourth level
one has at least two elements, the other at least one. -/
theorem C82_both_violated : ∃ T a b, Closed T ∧ EqReturns T a b true ∧ EqReturns T b a true ∧ ¬ Same T a b := by
  refine ⟨Ex.beat, 0, 2, Ex.beat_closed, eqReturns (n := 9) (by decide +kernel), eqReturns (n := 9) (by decide +kernel), ?_⟩
  rintro ⟨S, h0, hS⟩
  obtain ⟨x, y, hx, hy, h⟩ := hS _ _ h0
  cases hx; cases hy; cases h
  rename_i h1
  obtain ⟨x, y, hx, hy, h⟩ := hS _ _ h1
  cases hx; cases hy; cases h
  rename_i h2
  obtain ⟨x, y, hx, hy, h⟩ := hS _ _ h2
  cases hx; cases hy; cases h
  rename_i h3
  obtain ⟨x, y, hx, hy, h⟩ := hS _ _ h3
  cases hx; cases hy; cases h

/-- **C82, violated.**  `int|[](string|(int|[]string))`, which does not contain itself, is equal to `y=int|[](string|y)`: the operands of the
argument are compared with those of the receiver, so both get into the list of what has been seen. -/
theorem C82_operands_violated : ∃ T a b, Closed T ∧ EqReturns T a b true ∧ ¬ Same T a b := by
  refine ⟨Ex.alt, 5, 2, Ex.alt_closed, eqReturns (n := 19) (by decide +kernel), ?_⟩
  rintro ⟨S, h0, hS⟩
  obtain ⟨x, y, hx, hy, h⟩ := hS _ _ h0
  cases hx; cases hy; cases h
  rename_i h
  cases h with
  | cons _ h =>
  cases h with
  | cons h _ =>
  obtain ⟨x, y, hx, hy, h⟩ := hS _ _ h
  cases hx; cases hy; cases h
  rename_i h
  obtain ⟨x, y, hx, hy, h⟩ := hS _ _ h
  cases hx; cases hy; cases h
  rename_i h
  cases h with
  | cons _ h =>
  cases h with
  | cons h _ =>
  obtain ⟨x, y, hx, hy, h⟩ := hS _ _ h
  cases hx; cases hy; cases h
  rename_i h
  cases h with
  | cons _ h =>
  cases h with
  | cons h _ =>
  obtain ⟨x, y, hx, hy, h⟩ := hS _ _ h
  cases hx; cases hy; cases h
  rename_i h
  obtain ⟨x, y, hx, hy, h⟩ := hS _ _ h
  cases hx; cases hy; cases h

/-- **C82, violated.**  `x=[]x` and `[]x` are the same, and equal in both directions, but their hash codes are not. -/
theorem C82_hash_violated : ∃ T a b h h', Closed T ∧ Same T a b ∧ EqReturns T a b true ∧ EqReturns T b a true ∧
    HashReturns T a h ∧ HashReturns T b h' ∧ h ≠ h' := by
  refine ⟨Ex.list', 0, 1, 155, 310, Ex.list'_closed, ?_, eqReturns (n := 9) (by decide +kernel), eqReturns (n := 9) (by decide +kernel),
    hashReturns (n := 9) (by decide +kernel), hashReturns (n := 9) (by decide +kernel), by decide⟩
  refine ⟨fun c d => c = 0 ∧ d < 2, ⟨rfl, by decide⟩, ?_⟩
  rintro c d ⟨rfl, hd⟩
  match d, hd with
  | 0, _ => exact ⟨_, _, rfl, rfl, .arr ⟨rfl, by decide⟩⟩
  | 1, _ => exact ⟨_, _, rfl, rfl, .arr ⟨rfl, by decide⟩⟩

end Verif.Types.RecEq
