import Verif.Types.HashLemmas
import Verif.Types.AssignProps
/-!
# C60: equal types have equal hash codes
-/
set_option autoImplicit false
namespace Verif.Types
open Verif.Value

/-- **C60** (partial).  Types that are equal have the same hash code, wherever there are no logical operations in them, no tuples of exact
types and no sensitive values in exact types; with these it is false (`C60_violated`).  The types may share parts. -/
theorem C60_hash_partial {a b : Ty} (ha : a.Acyc) (oa : a.Ok) (ob : b.Ok) (ma : Made a) (ea : Every hashNode a) (eb : Every hashNode b)
    (hab : Agree a b) (h : a.equals b = true) : tyHash a = tyHash b :=
  (tyEq_hash _ [] a b ⟨ha, oa, ma, ea⟩ ob eb hab (by simp) h).1

/-- Two types of maps, one of which has the numbers 0 and -0 for the other's in a range. -/
example : ∃ a b : Ty, a.Acyc ∧ a.Ok ∧ b.Ok ∧ Made a ∧ Every hashNode a ∧ Every hashNode b ∧ Agree a b ∧ a.equals b = true ∧ a ≠ b := by
  refine ⟨.sizedMap (.user 0) .strT (.sizedArr (.user 1) (.floatRange 0 0x4000000000000000 true) 0 3) 1 2,
    .sizedMap (.user 2) .strT (.sizedArr (.user 3) (.floatRange 0x8000000000000000 0x4000000000000000 true) 0 3) 1 2, ?_, ?_, ?_, ?_, ?_, ?_, ?_,
    by decide +kernel, by simp⟩ <;>
  simp [Ty.Acyc, Ty.Ok, Made, hashNode, Agree, Ty.deep?, Ty.occ, every_sizedMap, every_sizedArr, every_str, every_floatRange]
example : tyHash (.sizedArr (.user 0) .intT 0 maxInt) ≠ tyHash (.sizedArr (.user 0) .strT 0 maxInt) := by decide +kernel

mutual
/-- The type without the identities of its parts -/
def forget : Ty → Ty
  | .exactD _ v => .exactD (.user 0) v
  | .sizedArr _ e lo hi => .sizedArr (.user 0) (forget e) lo hi
  | .tuple _ ts v => .tuple (.user 0) (forgets ts) v
  | .sizedMap _ k v lo hi => .sizedMap (.user 0) (forget k) (forget v) lo hi
  | .struct _ a fs => .struct (.user 0) a (forgetFields fs)
  | .allOf _ ts => .allOf (.user 0) (forgets ts)
  | .allOfVal _ vs => .allOfVal (.user 0) vs
  | .anyOf _ ts => .anyOf (.user 0) (forgets ts)
  | .oneOf _ ts => .oneOf (.user 0) (forgets ts)
  | .not t => .not (forget t)
  | .sens _ t => .sens (.user 0) (forget t)
  | .metaT t => .metaT (forget t)
  | t => t

def forgets : List Ty → List Ty
  | [] => []
  | t :: ts => forget t :: forgets ts

def forgetFields : List (Val × Bool × Ty) → List (Val × Bool × Ty)
  | [] => []
  | (k, r, t) :: fs => (k, r, forget t) :: forgetFields fs
end

theorem isAny_forget (t : Ty) : (forget t).isAny = t.isAny := by cases t <;> rfl

theorem forgetFields_map : ∀ fs : List (Val × Bool × Ty),
    (forgetFields fs).map (fun f => f.2.1) = fs.map (fun f => f.2.1) ∧ (forgetFields fs).map (fun f => exactHash f.1) = fs.map fun f => exactHash f.1
  | [] => ⟨rfl, rfl⟩
  | (k, r, t) :: fs => by
    have := forgetFields_map fs
    rw [forgetFields]
    simp [this.1, this.2]

mutual
theorem tyHash_forget : ∀ t : Ty, tyHash (forget t) = tyHash t
  | .exactD _ v => rfl
  | .sizedArr _ e lo hi => by rw [forget, tyHash, tyHash, isAny_forget, tyHash_forget e]
  | .tuple _ ts v => by rw [forget, tyHash, tyHash, tyHashes_forget ts]
  | .sizedMap _ k v lo hi => by rw [forget, tyHash, tyHash, isAny_forget, isAny_forget, tyHash_forget k]
  | .struct _ a fs => by rw [forget, tyHash, tyHash, tyHashFields_forget fs, (forgetFields_map fs).1, (forgetFields_map fs).2]
  | .allOf _ ts => by rw [forget, tyHash, tyHash, tyHashes_forget ts]
  | .allOfVal _ vs => rfl
  | .anyOf _ ts => by rw [forget, tyHash, tyHash, tyHashes_forget ts]
  | .oneOf _ ts => by rw [forget, tyHash, tyHash, tyHashes_forget ts]
  | .not t => by rw [forget, tyHash, tyHash, tyHash_forget t]
  | .sens _ t => by rw [forget, tyHash, tyHash, tyHash_forget t]
  | .metaT t => by rw [forget, tyHash, tyHash, tyHash_forget t]
  | .any | .nilT | .boolT | .intT | .floatT | .strT | .regexpT | .timeT | .arrT | .mapT | .exact _ | .intRange .. | .floatRange .. | .sizedStr ..
  | .ciStr _ | .pattern _ | .bin .. | .metaMeta => rfl

theorem tyHashes_forget : ∀ ts : List Ty, tyHashes (forgets ts) = tyHashes ts
  | [] => rfl
  | t :: ts => by rw [forgets, tyHashes, tyHashes, tyHash_forget t, tyHashes_forget ts]

theorem tyHashFields_forget : ∀ fs : List (Val × Bool × Ty), tyHashFields (forgetFields fs) = tyHashFields fs
  | [] => rfl
  | (k, r, t) :: fs => by rw [forgetFields, tyHashFields, tyHashFields, tyHash_forget t, tyHashFields_forget fs]
end

/-- **C60, types that are made the same way.**  The hash code does not depend on which objects the type and its parts are: types of any form
that are made in the same way, with the operands in the same order, have the same hash code. -/
theorem C60_same_partial {a b : Ty} (h : forget a = forget b) : tyHash a = tyHash b := by
  rw [← tyHash_forget a, h, tyHash_forget b]

/-- `int|[]string` twice -/
example : let t (n : Nat) : Ty := .anyOf (.user n) [.intT, .sizedArr (.user (n + 1)) .strT 0 maxInt]
    forget (t 1) = forget (t 5) := rfl

/-- **C60** is violated: equal types with different hash codes.  `"a"|int` and `int|"a"`, with the other operations likewise; `allOf` of two
exact types and `allOf` of their values; the empty tuple type and the type of the empty array; the type of a tuple with one sensitive integer and
that of an array with one. -/
theorem C60_violated : ∀ w ∈ [
    (Ty.anyOf (.user 0) [.exact (Ex.s 97), .intT], Ty.anyOf (.user 1) [.intT, .exact (Ex.s 97)]),
    (Ty.oneOf (.user 0) [.exact (Ex.s 97), .intT], Ty.oneOf (.user 1) [.intT, .exact (Ex.s 97)]),
    (Ty.allOf (.user 0) [.strT, .sizedStr 1 2], Ty.allOf (.user 1) [.sizedStr 1 2, .strT]),
    (Ty.allOf (.user 0) [.exact (Ex.i 1), .exact (Ex.i 2)], Ty.allOfVal (.user 1) [Ex.i 1, Ex.i 2]),
    (Ty.tuple (.user 0) [] false, Ty.exactD (.user 1) (.arr [])),
    (Ty.tuple (.user 0) [.sens (.user 1) .intT] false, Ty.exactD (.user 2) (.arr [.sens (Ex.i 1)]))],
    w.1.equals w.2 = true ∧ tyHash w.1 ≠ tyHash w.2 := by decide +kernel

end Verif.Types
