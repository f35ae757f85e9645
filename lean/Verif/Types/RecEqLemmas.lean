import Verif.Types.RecEqSpec
import Mathlib.Data.Finset.Card
import Mathlib.Data.Finset.Range
/-!
# Equals and HashCode of types that contain themselves: lemmas
-/
set_option autoImplicit false
set_option linter.unusedVariables false
set_option linter.unusedSimpArgs false

namespace Verif.Types.RecEq
open Verif.Value

/-! ### More fuel does not change an answer -/

def Ext {α : Type} (a b : Option α) : Prop := ∀ r, a = some r → b = some r

theorem Ext.refl {α : Type} (a : Option α) : Ext a a := fun _ h => h

theorem Ext.map {α β : Type} {a b : Option α} (h : Ext a b) (f : α → β) : Ext (a.map f) (b.map f) := by
  intro r hr
  obtain ⟨x, hx, rfl⟩ := Option.map_eq_some_iff.1 hr
  rw [h x hx]; rfl

theorem codes_ext {f f' : Nat → Code} : (ts : List Nat) → (∀ t ∈ ts, Ext (f t) (f' t)) → Ext (codes f ts) (codes f' ts)
  | [], _ => Ext.refl _
  | t :: ts, h => by
    intro r hr
    rw [codes] at hr ⊢
    split at hr
    · cases hr
    · rename_i x e
      rw [h t (.head _) _ e]
      exact Ext.map (codes_ext ts fun t ht => h t (.tail _ ht)) _ r hr

theorem deepHash_ext {T : Types} {f f' : Nat → Code} (x : Node) (h : ∀ t ∈ x.keyRefs, Ext (f t) (f' t)) : Ext (deepHash T f x) (deepHash T f' x) := by
  cases x with
  | leaf t => exact Ext.refl _
  | not t => exact Ext.refl _
  | arr e lo hi =>
    simp only [deepHash]
    split
    · exact Ext.refl _
    · exact Ext.map (h e (.head _)) _
  | tuple ts var => exact Ext.map (codes_ext ts h) _
  | map k v lo hi =>
    have hk := h k (.head _)
    intro r hr
    simp only [deepHash] at hr ⊢
    cases hka : isAny T k
    · simp only [hka, Bool.false_eq_true, if_false] at hr ⊢
      cases hf : f k with
      | none => simp [hf] at hr
      | some c => rw [hk c hf]; rw [hf] at hr; exact hr
    · simp only [hka, if_true] at hr ⊢
      cases hva : isAny T v
      · simp only [hva, Bool.false_eq_true, if_false] at hr ⊢
        exact Ext.map hk _ r hr
      · simp only [hva, if_true] at hr ⊢; exact hr
  | struct add fs => exact Ext.map (codes_ext _ h) _
  | allOf ts => exact Ext.map (codes_ext ts h) _
  | anyOf ts => exact Ext.map (codes_ext ts h) _
  | oneOf ts => exact Ext.map (codes_ext ts h) _
  | sens t => exact Ext.map (h t (.head _)) _

/-- The `seen` that is handed down -/
def down (g : Option (List Nat)) (t : Nat) (x : Node) : List Nat := if g.isNone && x.isTuple then [] else t :: g.getD []

theorem hash_leaf {T : Types} {n : Nat} {g : Option (List Nat)} {t : Nat} {s : Ty} (h : T[t]? = some (.leaf s)) :
    hashCode T (n + 1) g t = some (tyHash s) := by
  rw [hashCode, h]

theorem hash_not {T : Types} {n : Nat} {g : Option (List Nat)} {t u : Nat} (h : T[t]? = some (.not u)) :
    hashCode T (n + 1) g t = (hashCode T n none u).map fun x => 1579 + x := by
  rw [hashCode, h]

theorem hash_hit {T : Types} {n : Nat} {g : Option (List Nat)} {t : Nat} {x : Node} (h : T[t]? = some x) (hd : x.isDeep = true)
    (hs : t ∈ g.getD []) : hashCode T (n + 1) g t = some 0 := by
  rw [hashCode, h]
  cases x <;> first | exact absurd hd Bool.false_ne_true | exact if_pos hs

theorem hash_deep {T : Types} {n : Nat} {g : Option (List Nat)} {t : Nat} {x : Node} (h : T[t]? = some x) (hd : x.isDeep = true)
    (hs : t ∉ g.getD []) : hashCode T (n + 1) g t = deepHash T (hashCode T n (some (down g t x))) x := by
  rw [hashCode, h]
  cases x <;> first | exact absurd hd Bool.false_ne_true | exact if_neg hs

theorem hash_succ {T : Types} : (n : Nat) → (g : Option (List Nat)) → (t : Nat) → Ext (hashCode T n g t) (hashCode T (n + 1) g t)
  | 0, g, t => by intro r hr; cases hr
  | n + 1, g, t => by
    cases ht : T[t]? with
    | none => intro r hr; rw [hashCode, ht] at hr; cases hr
    | some x =>
      cases hd : x.isDeep
      · cases x with
        | leaf s => rw [hash_leaf ht, hash_leaf ht]; exact Ext.refl _
        | not u => rw [hash_not ht, hash_not ht]; exact Ext.map (hash_succ n none u) _
        | _ => exact absurd hd (by simp [Node.isDeep])
      · by_cases hs : t ∈ g.getD []
        · rw [hash_hit ht hd hs, hash_hit ht hd hs]; exact Ext.refl _
        · rw [hash_deep ht hd hs, hash_deep ht hd hs]
          exact deepHash_ext x fun u _ => hash_succ n _ u

theorem hash_mono {T : Types} {n m : Nat} (h : n ≤ m) (g : Option (List Nat)) (t : Nat) : Ext (hashCode T n g t) (hashCode T m g t) := by
  induction h with
  | refl => exact Ext.refl _
  | step _ ih => exact fun r hr => hash_succ _ g t r (ih r hr)

theorem zip_ext {f f' : Nat → Nat → Check} : (as bs : List Nat) → (∀ a ∈ as, ∀ b ∈ bs, Ext (f a b) (f' a b)) → Ext (zipAllC f as bs) (zipAllC f' as bs)
  | [], [], _ => Ext.refl _
  | [], _ :: _, _ => Ext.refl _
  | _ :: _, [], _ => Ext.refl _
  | a :: as, b :: bs, h => by
    intro r hr
    rw [zipAllC, andC.eq_def] at hr ⊢
    have h1 := h a (.head _) b (.head _)
    split at hr
    · cases hr
    · rename_i e; rw [h1 _ e]; exact hr
    · rename_i e; rw [h1 _ e]; exact zip_ext as bs (fun a ha b hb => h a (.tail _ ha) b (.tail _ hb)) r hr

theorem take_ext {f f' : Nat → Check} : (bs : List Nat) → (∀ b ∈ bs, Ext (f b) (f' b)) → Ext (takeFirstC f bs) (takeFirstC f' bs)
  | [], _ => Ext.refl _
  | b :: bs, h => by
    intro r hr
    rw [takeFirstC] at hr ⊢
    split at hr
    · cases hr
    · rename_i e; rw [h b (.head _) _ e]; exact hr
    · rename_i e; rw [h b (.head _) _ e]
      exact Ext.map (take_ext bs fun b hb => h b (.tail _ hb)) _ r hr

theorem take_sub {f : Nat → Check} : (bs cs : List Nat) → takeFirstC f bs = some (some cs) → ∀ c ∈ cs, c ∈ bs
  | [], cs, h => by simp [takeFirstC] at h
  | b :: bs, cs, h => by
    rw [takeFirstC] at h
    split at h
    · cases h
    · cases h; exact fun c hc => .tail _ hc
    · obtain ⟨o, ho, he⟩ := Option.map_eq_some_iff.1 h
      obtain ⟨ds, rfl, rfl⟩ := Option.map_eq_some_iff.1 he
      intro c hc
      cases hc with
      | head => exact .head _
      | tail _ hc => exact .tail _ (take_sub bs ds ho c hc)

theorem match_ext {f f' : Nat → Nat → Check} : (as bs : List Nat) → (∀ b ∈ bs, ∀ a ∈ as, Ext (f b a) (f' b a)) →
    Ext (matchAllC f as bs) (matchAllC f' as bs)
  | [], _, _ => Ext.refl _
  | a :: as, bs, h => by
    intro r hr
    rw [matchAllC] at hr ⊢
    have h1 := take_ext (f := fun b => f b a) (f' := fun b => f' b a) bs fun b hb => h b hb a (.head _)
    split at hr
    · cases hr
    · rename_i e; rw [h1 _ e]; exact hr
    · rename_i cs e; rw [h1 _ e]
      exact match_ext as cs (fun b hb a ha => h b (take_sub bs cs e b hb) a (.tail _ ha)) r hr

theorem and_ext {a a' b b' : Check} (h : Ext a a') (hb : Ext b b') : Ext (andC a b) (andC a' b') := by
  intro r hr
  rw [andC.eq_def] at hr
  split at hr
  · cases hr
  · rw [h _ rfl]; exact hr
  · rw [h _ rfl]; exact hb r hr

theorem same_ext {f f' : Nat → Nat → Check} (as bs : List Nat) (h : ∀ b ∈ bs, ∀ a ∈ as, Ext (f b a) (f' b a)) :
    Ext (sameValuesC f as bs) (sameValuesC f' as bs) := by
  unfold sameValuesC
  split
  · exact match_ext as bs h
  · exact Ext.refl _

theorem deepEq_ext {f f' : Nat → Nat → Check} (x y : Node) (h : ∀ a ∈ x.refs, ∀ b ∈ y.refs, Ext (f a b) (f' a b))
    (h' : ∀ a ∈ x.refs, ∀ b ∈ y.refs, Ext (f b a) (f' b a)) : Ext (deepEq f x y) (deepEq f' x y) := by
  cases x <;> cases y <;> try exact Ext.refl _
  · simp only [deepEq]; split
    · exact h _ (.head _) _ (.head _)
    · exact Ext.refl _
  · simp only [deepEq]; split
    · exact zip_ext _ _ h
    · exact Ext.refl _
  · simp only [deepEq]; split
    · exact and_ext (h _ (.head _) _ (.head _)) (h _ (.tail _ (.head _)) _ (.tail _ (.head _)))
    · exact Ext.refl _
  · simp only [deepEq]; split
    · exact zip_ext _ _ h
    · exact Ext.refl _
  · exact same_ext _ _ fun b hb a ha => h' a ha b hb
  · exact same_ext _ _ fun b hb a ha => h' a ha b hb
  · exact same_ext _ _ fun b hb a ha => h' a ha b hb
  · exact h _ (.head _) _ (.head _)

theorem eq_succ {T : Types} : (n : Nat) → (g : Option (List Nat)) → (a b : Nat) → Ext (equals T n g a b) (equals T (n + 1) g a b)
  | 0, g, a, b => by intro r hr; cases hr
  | n + 1, g, a, b => by
    conv => congr <;> rw [equals]
    cases ha : T[a]? with
    | none => exact Ext.refl _
    | some x =>
      cases hb : T[b]? with
      | none => exact Ext.refl _
      | some y =>
        dsimp only
        split
        · split
          · exact Ext.refl _
          · split
            · exact Ext.refl _
            · split
              · exact deepEq_ext x y (fun a _ b _ => eq_succ n _ a b) (fun a _ b _ => eq_succ n _ b a)
              · exact Ext.refl _
        · split
          · exact Ext.refl _
          · cases x <;> cases y <;> first | exact Ext.refl _ | exact eq_succ n none _ _

theorem eq_mono {T : Types} {n m : Nat} (h : n ≤ m) (g : Option (List Nat)) (a b : Nat) : Ext (equals T n g a b) (equals T m g a b) := by
  induction h with
  | refl => exact Ext.refl _
  | step _ ih => exact fun r hr => eq_succ _ g a b r (ih r hr)

theorem hashReturns {T : Types} {n t : Nat} {h : BitVec 64} (e : hashCode T n none t = some h) : HashReturns T t h :=
  ⟨n, fun m hm => hash_mono hm none t h e⟩

theorem eqReturns {T : Types} {n a b : Nat} {r : Bool} (e : equals T n none a b = some r) : EqReturns T a b r :=
  ⟨n, fun m hm => eq_mono hm none a b r e⟩

end Verif.Types.RecEq
