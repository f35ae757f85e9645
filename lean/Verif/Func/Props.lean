import Verif.Func.Model
/-!
# C103: equality of functions and of function types
-/
set_option autoImplicit false
set_option linter.unusedSectionVars false
namespace Verif.Func

variable {L : Type} [Leaf L]

/-! ## Specification -/

/-- `Equals` of the other types is an equivalence, and equal ones have the same hash code. -/
class LawfulLeaf (L : Type) [Leaf L] : Prop where
  refl : ∀ a : L, Leaf.eq a a = true
  symm : ∀ a b : L, Leaf.eq a b = true → Leaf.eq b a = true
  trans : ∀ a b c : L, Leaf.eq a b = true → Leaf.eq b c = true → Leaf.eq a c = true
  hash : ∀ a b : L, Leaf.eq a b = true → Leaf.hash a = Leaf.hash b

mutual
/-- The same parameters and results; a function type of Go may stand on the left where another one stands on the right. -/
inductive Like : FT L → FT L → Prop where
  | leaf {a b : L} : Leaf.eq a b = true → Like (.leaf a) (.leaf b)
  | fn {e e' : Bool} {i i' o o' : List (FT L)} {v w : Bool} : (e' = true → e = true) → Likes i i' → Likes o o' → Like (.fn e i v o w) (.fn e' i' v o' w)
inductive Likes : List (FT L) → List (FT L) → Prop where
  | nil : Likes [] []
  | cons {a b : FT L} {as bs : List (FT L)} : Like a b → Likes as bs → Likes (a :: as) (b :: bs)
end

mutual
/-- The same, and function types of Go in the same places. -/
inductive Same : FT L → FT L → Prop where
  | leaf {a b : L} : Leaf.eq a b = true → Same (.leaf a) (.leaf b)
  | fn {e : Bool} {i i' o o' : List (FT L)} {v w : Bool} : Sames i i' → Sames o o' → Same (.fn e i v o w) (.fn e i' v o' w)
inductive Sames : List (FT L) → List (FT L) → Prop where
  | nil : Sames [] []
  | cons {a b : FT L} {as bs : List (FT L)} : Same a b → Sames as bs → Sames (a :: as) (b :: bs)
end

mutual
/-- The function type that is parsed from the text of a type of Go: `func(int,...string) bool` -/
def parsed : GoT L → FT L
  | .leaf l => .leaf l
  | .func i v o => .fn false (parseds i) v (parseds o) false
def parseds : List (GoT L) → List (FT L)
  | [] => []
  | t :: ts => parsed t :: parseds ts
end

mutual
/-- Types of Go with the same parameters and results -/
inductive GoSame : GoT L → GoT L → Prop where
  | leaf {a b : L} : Leaf.eq a b = true → GoSame (.leaf a) (.leaf b)
  | func {i i' o o' : List (GoT L)} {v : Bool} : GoSames i i' → GoSames o o' → GoSame (.func i v o) (.func i' v o')
inductive GoSames : List (GoT L) → List (GoT L) → Prop where
  | nil : GoSames [] []
  | cons {a b : GoT L} {as bs : List (GoT L)} : GoSame a b → GoSames as bs → GoSames (a :: as) (b :: bs)
end

mutual
/-- All function types in it are (`e`) or are not function types of Go. -/
inductive Only (e : Bool) : FT L → Prop where
  | leaf (l : L) : Only e (.leaf l)
  | fn {i o : List (FT L)} (v w : Bool) : Onlys e i → Onlys e o → Only e (.fn e i v o w)
inductive Onlys (e : Bool) : List (FT L) → Prop where
  | nil : Onlys e []
  | cons {a : FT L} {as : List (FT L)} : Only e a → Onlys e as → Onlys e (a :: as)
end

/-! ## Lemmas -/

mutual
theorem feq_iff : ∀ a b : FT L, feq a b = true ↔ Like a b
  | .leaf a, .leaf b => ⟨fun h => .leaf (by simpa [feq] using h), fun h => by cases h; simpa [feq]⟩
  | .leaf a, .fn .. => ⟨fun h => by simp [feq] at h, fun h => by cases h⟩
  | .fn .., .leaf b => ⟨fun h => by simp [feq] at h, fun h => by cases h⟩
  | .fn e i v o w, .fn e' i' v' o' w' => by
    rw [feq]
    simp only [Bool.and_eq_true, beq_iff_eq, feqs_iff i i', feqs_iff o o']
    constructor
    · rintro ⟨⟨he, rfl, h1⟩, rfl, h2⟩
      exact .fn (by cases e <;> cases e' <;> simp_all) h1 h2
    · intro h
      cases h with
      | fn he h1 h2 => exact ⟨⟨by cases e <;> cases e' <;> simp_all, rfl, h1⟩, rfl, h2⟩
theorem feqs_iff : ∀ a b : List (FT L), feqs a b = true ↔ Likes a b
  | [], [] => ⟨fun _ => .nil, fun _ => by rw [feqs]⟩
  | [], b :: bs => ⟨fun h => by simp [feqs] at h, fun h => by cases h⟩
  | a :: as, [] => ⟨fun h => by simp [feqs] at h, fun h => by cases h⟩
  | a :: as, b :: bs => by
    rw [feqs, Bool.and_eq_true, feq_iff a b, feqs_iff as bs]
    exact ⟨fun h => .cons h.1 h.2, fun h => by cases h; exact ⟨by assumption, by assumption⟩⟩
end

mutual
theorem Like.refl [LawfulLeaf L] : ∀ a : FT L, Like a a
  | .leaf l => .leaf (LawfulLeaf.refl l)
  | .fn _ i _ o _ => .fn (fun h => h) (Likes.refl i) (Likes.refl o)
theorem Likes.refl [LawfulLeaf L] : ∀ a : List (FT L), Likes a a
  | [] => .nil
  | a :: as => .cons (Like.refl a) (Likes.refl as)
end

mutual
theorem Like.trans [LawfulLeaf L] : ∀ {a b c : FT L}, Like a b → Like b c → Like a c
  | _, _, _, .leaf h, .leaf h' => .leaf (LawfulLeaf.trans _ _ _ h h')
  | _, _, _, .fn h h1 h2, .fn h' h1' h2' => .fn (fun x => h (h' x)) (h1.trans h1') (h2.trans h2')
theorem Likes.trans [LawfulLeaf L] : ∀ {a b c : List (FT L)}, Likes a b → Likes b c → Likes a c
  | _, _, _, .nil, .nil => .nil
  | _, _, _, .cons h h1, .cons h' h1' => .cons (h.trans h') (h1.trans h1')
end

mutual
theorem Like.hash [LawfulLeaf L] (ti : BitVec 64) : ∀ {a b : FT L}, Like a b → fhash ti a = fhash ti b
  | _, _, .leaf h => LawfulLeaf.hash _ _ h
  | _, _, .fn _ h1 h2 => by rw [fhash, fhash, h1.hash, h2.hash]
theorem Likes.hash [LawfulLeaf L] (ti : BitVec 64) : ∀ {a b : List (FT L)} {x : BitVec 64}, Likes a b → fhashes ti x a = fhashes ti x b
  | _, _, _, .nil => rfl
  | _, _, _, .cons h h1 => by rw [fhashes, fhashes, h.hash, h1.hash]
end

mutual
theorem Like.both : ∀ {a b : FT L}, Like a b → Like b a → Same a b
  | _, _, .leaf h, .leaf _ => .leaf h
  | _, _, .fn (e := e) (e' := e') h h1 h2, .fn h' h1' h2' => by
    obtain rfl : e = e' := by cases e <;> cases e' <;> simp_all
    exact .fn (h1.both h1') (h2.both h2')
theorem Likes.both : ∀ {a b : List (FT L)}, Likes a b → Likes b a → Sames a b
  | _, _, .nil, .nil => .nil
  | _, _, .cons h h1, .cons h' h1' => .cons (h.both h') (h1.both h1')
end

mutual
theorem Same.like : ∀ {a b : FT L}, Same a b → Like a b
  | _, _, .leaf h => .leaf h
  | _, _, .fn h1 h2 => .fn (fun h => h) h1.like h2.like
theorem Sames.like : ∀ {a b : List (FT L)}, Sames a b → Likes a b
  | _, _, .nil => .nil
  | _, _, .cons h h1 => .cons h.like h1.like
end

mutual
theorem Same.symm [LawfulLeaf L] : ∀ {a b : FT L}, Same a b → Same b a
  | _, _, .leaf h => .leaf (LawfulLeaf.symm _ _ h)
  | _, _, .fn h1 h2 => .fn h1.symm h2.symm
theorem Sames.symm [LawfulLeaf L] : ∀ {a b : List (FT L)}, Sames a b → Sames b a
  | _, _, .nil => .nil
  | _, _, .cons h h1 => .cons h.symm h1.symm
end

mutual
theorem Like.same {e : Bool} : ∀ {a b : FT L}, Like a b → Only e a → Only e b → Same a b
  | _, _, .leaf h, .leaf _, .leaf _ => .leaf h
  | _, _, .fn _ h1 h2, .fn _ _ o1 o2, .fn _ _ o1' o2' => .fn (h1.same o1 o1') (h2.same o2 o2')
theorem Likes.same {e : Bool} : ∀ {a b : List (FT L)}, Likes a b → Onlys e a → Onlys e b → Sames a b
  | _, _, .nil, .nil, .nil => .nil
  | _, _, .cons h h1, .cons o1 o2, .cons o1' o2' => .cons (h.same o1 o1') (h1.same o2 o2')
end

mutual
theorem only_ofGo : ∀ g : GoT L, Only true (ofGo g)
  | .leaf l => .leaf l
  | .func i v o => .fn v false (onlys_ofGos i) (onlys_ofGos o)
theorem onlys_ofGos : ∀ g : List (GoT L), Onlys true (ofGos g)
  | [] => .nil
  | a :: as => .cons (only_ofGo a) (onlys_ofGos as)
end

mutual
theorem like_parsed [LawfulLeaf L] : ∀ a : GoT L, Like (ofGo a) (parsed a)
  | .leaf l => .leaf (LawfulLeaf.refl l)
  | .func i v o => .fn (fun h => by cases h) (likes_parseds i) (likes_parseds o)
theorem likes_parseds [LawfulLeaf L] : ∀ a : List (GoT L), Likes (ofGos a) (parseds a)
  | [] => .nil
  | a :: as => .cons (like_parsed a) (likes_parseds as)
end

mutual
theorem only_parsed : ∀ g : GoT L, Only false (parsed g)
  | .leaf l => .leaf l
  | .func i v o => .fn v false (onlys_parseds i) (onlys_parseds o)
theorem onlys_parseds : ∀ g : List (GoT L), Onlys false (parseds g)
  | [] => .nil
  | a :: as => .cons (only_parsed a) (onlys_parseds as)
end

mutual
theorem like_go : ∀ a b : GoT L, Like (ofGo a) (ofGo b) ↔ GoSame a b
  | .leaf a, .leaf b => ⟨fun h => by cases h; exact .leaf (by assumption), fun h => by cases h; exact .leaf (by assumption)⟩
  | .leaf a, .func .. => ⟨(fun h => by rw [ofGo, ofGo] at h; cases h), (fun h => by cases h)⟩
  | .func .., .leaf b => ⟨(fun h => by rw [ofGo, ofGo] at h; cases h), (fun h => by cases h)⟩
  | .func i v o, .func i' v' o' => by
    rw [ofGo, ofGo]
    constructor
    · intro h
      cases h with
      | fn _ h1 h2 => exact .func ((likes_go i i').1 h1) ((likes_go o o').1 h2)
    · intro h
      cases h with
      | func h1 h2 => exact .fn (fun h => h) ((likes_go i i').2 h1) ((likes_go o o').2 h2)
theorem likes_go : ∀ a b : List (GoT L), Likes (ofGos a) (ofGos b) ↔ GoSames a b
  | [], [] => ⟨fun _ => .nil, fun _ => .nil⟩
  | [], b :: bs => ⟨(fun h => by rw [ofGos, ofGos] at h; cases h), (fun h => by cases h)⟩
  | a :: as, [] => ⟨(fun h => by rw [ofGos, ofGos] at h; cases h), (fun h => by cases h)⟩
  | a :: as, b :: bs => by
    rw [ofGos, ofGos]
    constructor
    · intro h
      cases h with
      | cons h1 h2 => exact .cons ((like_go a b).1 h1) ((likes_go as bs).1 h2)
    · intro h
      cases h with
      | cons h1 h2 => exact .cons ((like_go a b).2 h1) ((likes_go as bs).2 h2)
end

/-! ## Theorems -/

namespace Ex
instance : Leaf Nat := ⟨fun a b => a == b, BitVec.ofNat 64⟩
instance : LawfulLeaf Nat where
  refl a := by simp [Leaf.eq]
  symm a b h := by simp only [Leaf.eq, beq_iff_eq] at *; exact h.symm
  trans a b c h g := by simp only [Leaf.eq, beq_iff_eq] at *; exact h.trans g
  hash a b h := by simp only [Leaf.eq, beq_iff_eq] at h; rw [h]
/-- `func(int, func(...int)) int`, with types numbered -/
def g : GoT Nat := .func [.leaf 1, .func [.leaf 1] true []] false [.leaf 1]
end Ex

/-- **C103, when function types are equal**: when they have the same parameters and results, where a type of a Go function on the right needs one
on the left. -/
theorem C103_equal_iff (a b : FT L) : feq a b = true ↔ Like a b := feq_iff a b

/-- **C103, laws.**  `Equals` of function types is reflexive and transitive, and equal function types have the same hash code. -/
theorem C103_laws [LawfulLeaf L] (ti : BitVec 64) :
    (∀ a : FT L, feq a a = true) ∧ (∀ a b c : FT L, feq a b = true → feq b c = true → feq a c = true) ∧
      (∀ a b : FT L, feq a b = true → fhash ti a = fhash ti b) :=
  ⟨fun a => (feq_iff a a).2 (Like.refl a),
    fun a b c h h' => (feq_iff a c).2 (((feq_iff a b).1 h).trans ((feq_iff b c).1 h')),
    fun a b h => ((feq_iff a b).1 h).hash ti⟩
example : feq (ofGo Ex.g) (parsed Ex.g) = true ∧ fhash 20 (ofGo Ex.g) = fhash 20 (parsed Ex.g) := by decide +kernel

/-- **C103, symmetry, where it holds**: for two types of Go functions, and for two types without any in them. -/
theorem C103_symmetric_partial [LawfulLeaf L] {e : Bool} {a b : FT L} (ha : Only e a) (hb : Only e b) : feq a b = feq b a := by
  rw [Bool.eq_iff_iff, feq_iff, feq_iff]
  exact ⟨fun h => (h.same ha hb).symm.like, fun h => (h.same hb ha).symm.like⟩
example : Only true (ofGo Ex.g) := only_ofGo _
example : Only false (parsed Ex.g) := only_parsed _

/-- **C103, types of Go functions** are equal exactly if the Go types have the same parameters and results. -/
theorem C103_go_types (a b : GoT L) : feq (ofGo a) (ofGo b) = true ↔ GoSame a b := by
  rw [feq_iff, like_go]
example : GoSame Ex.g Ex.g := .func (.cons (.leaf rfl) (.cons (.func (.cons (.leaf rfl) .nil) .nil) .nil)) (.cons (.leaf rfl) .nil)

/-- **C103, what both directions need**: types of Go functions in the same places. -/
theorem C103_both_ways [LawfulLeaf L] (a b : FT L) : (feq a b = true ∧ feq b a = true) ↔ Same a b := by
  rw [feq_iff, feq_iff]
  exact ⟨fun h => h.1.both h.2, fun h => ⟨h.like, h.symm.like⟩⟩

/-- **C103 is violated**: the type of each Go function is equal to the type that is read from its text, but not the other way round. -/
theorem C103_one_way [LawfulLeaf L] (i : List (GoT L)) (v : Bool) (o : List (GoT L)) :
    feq (ofGo (.func i v o)) (parsed (.func i v o)) = true ∧ feq (parsed (.func i v o)) (ofGo (.func i v o)) = false := by
  refine ⟨(feq_iff _ _).2 (like_parsed _), ?_⟩
  rw [ofGo, parsed, feq]
  rfl
example : parsed Ex.g = .fn false [.leaf 1, .fn false [.leaf 1] true [] false] false [.leaf 1] false := rfl

/-- **C103, values.**  Equality of functions is an equivalence and equal functions have the same hash code. -/
theorem C103_functions {C : Type} : (∀ f : Fun C, f.eq f = true) ∧ (∀ f g : Fun C, f.eq g = g.eq f) ∧
    (∀ f g h : Fun C, f.eq g = true → g.eq h = true → f.eq h = true) ∧ (∀ f g : Fun C, f.eq g = true → f.hash = g.hash) := by
  refine ⟨fun f => by simp [Fun.eq], fun f g => ?_, fun f g h => ?_, fun f g => ?_⟩
  · simp only [Fun.eq]; rw [Bool.eq_iff_iff, beq_iff_eq, beq_iff_eq]; exact eq_comm
  · simp only [Fun.eq, beq_iff_eq]; exact fun a b => a.trans b
  · simp only [Fun.eq, beq_iff_eq, Fun.hash]; exact fun a => by rw [a]
example : (Fun.eq ⟨7, 1⟩ ⟨7, 2⟩ : Bool) = true ∧ (Fun.eq ⟨7, 1⟩ ⟨8, 1⟩ : Bool) = false := by decide

/-- **C103 is violated for closures**: where what the code does depends on the variables that the function was made with, there are equal functions
that give different results. -/
theorem C103_closures_differ {C A R : Type} (run : Nat → C → A → R) {code : Nat} {c c' : C} {a : A} (h : run code c a ≠ run code c' a) :
    ∃ f g : Fun C, f.eq g = true ∧ run f.code f.captured a ≠ run g.code g.captured a :=
  ⟨⟨code, c⟩, ⟨code, c'⟩, by simp [Fun.eq], h⟩
example : (fun (_ : Nat) (c a : Nat) => c + a) 0 1 5 ≠ (fun (_ : Nat) (c a : Nat) => c + a) 0 2 5 := by decide

end Verif.Func
