import Verif.Reflect.Total
/-!
# What can be read
-/
set_option autoImplicit false
set_option linter.unusedVariables false
set_option linter.unusedSimpArgs false
namespace Verif.Reflect
open Verif.Value
variable {E : Env}

mutual
theorem reads : ∀ (g : GV), Known g → ∃ v, fromReflected E g = .ok v
  | .bool _, h => ⟨_, rfl⟩
  | .int k n, h => by
    rw [Known] at h
    rw [fromReflected, ofInt, if_neg]
    · exact ⟨_, rfl⟩
    · rintro ⟨hk, hn⟩
      rcases h with h | h
      · rcases hk with rfl | rfl <;> cases h
      · exact h hn
  | .float32 _, h => ⟨_, rfl⟩
  | .float64 _, h => ⟨_, rfl⟩
  | .string _, h => ⟨_, rfl⟩
  | .time _, h => ⟨_, rfl⟩
  | .regexp _, h => h.elim
  | .slice _ none, h => ⟨_, rfl⟩
  | .slice e (some gs), h => by
    rw [Known] at h
    rw [fromReflected]
    split
    · exact ⟨_, rfl⟩
    · rename_i he
      obtain ⟨vs, hv⟩ := readsAll e gs (h.resolve_left he)
      rw [hv]; exact ⟨_, rfl⟩
  | .map _ _ none, h => ⟨_, rfl⟩
  | .map _ _ (some es), h => by
    rw [Known] at h
    obtain ⟨vs, hv⟩ := readsEntries es h
    rw [fromReflected, hv]; exact ⟨_, rfl⟩
  | .ptr _ none, h => ⟨_, rfl⟩
  | .ptr e (some g), h => by
    rw [Known] at h
    rw [fromReflected]
    split
    · rename_i he
      rw [if_pos he] at h
      obtain ⟨s, rfl⟩ := h
      exact ⟨_, rfl⟩
    · rename_i he
      rw [if_neg he] at h
      rw [if_neg h.1]
      exact reads g h.2
  | .iface none, h => ⟨_, rfl⟩
  | .iface (some g), h => by
    rw [Known] at h
    rw [fromReflected]; exact reads g h
  | .value _ none, h => ⟨_, rfl⟩
  | .value _ (some v), h => ⟨_, rfl⟩

theorem readsAll : ∀ (e : GT) (gs : List GV), KnownAll e gs → ∃ vs, fromAll E (e == .value .any) gs = .ok vs
  | e, [], h => ⟨[], rfl⟩
  | e, g :: gs, h => by
    rw [KnownAll] at h
    obtain ⟨v, hv⟩ := reads g h.2.1
    obtain ⟨vs, hvs⟩ := readsAll e gs h.2.2
    have : ((e == .value .any) && goNil g) = false := by
      cases he : e == .value .any with
      | false => rfl
      | true =>
        have hg := h.1.resolve_left (by simpa using he)
        unfold goNil
        split
        · exact absurd rfl (hg _)
        · rfl
    rw [fromAll, this, if_neg (by simp), native_not hv, if_neg (by simp), hv, hvs]
    exact ⟨_, rfl⟩

theorem readsEntries : ∀ (es : List (GV × GV)), KnownEntries es → ∃ vs, fromEntries E es = .ok vs
  | [], h => ⟨[], rfl⟩
  | (k, v) :: es, h => by
    rw [KnownEntries] at h
    obtain ⟨a, ha⟩ := reads k h.1
    obtain ⟨b, hb⟩ := reads v h.2.1
    obtain ⟨vs, hvs⟩ := readsEntries es h.2.2
    have : ∃ c, (if nanKey E k then Except.ok Val.nil else fromReflected E v) = .ok c := by
      split
      · exact ⟨_, rfl⟩
      · exact ⟨b, hb⟩
    obtain ⟨c, hc⟩ := this
    rw [fromEntries, ha]
    simp only [Except.bind]
    rw [hc, hvs]
    exact ⟨_, rfl⟩
end

/-- Keys of such a type that are different in Go are different in `dgo`. -/
theorem keys_differ {t : GT} (ht : KeyType t) {a b : GV} (ha : a.type = t ∧ Typed a) (hb : b.type = t ∧ Typed b) (hd : keyEq E b a = false)
    {x y : Val} (hx : fromReflected E a = .ok x) (hy : fromReflected E b = .ok y) : eq x y = false := by
  obtain ⟨a1, a2⟩ := ha
  obtain ⟨b1, b2⟩ := hb
  subst a1
  cases a <;> cases b <;> simp only [GV.type, KeyType] at ht b1 <;> cases b1 <;> simp only [fromReflected, ofInt] at hx hy
  case int.int k m n =>
    split at hx <;> cases hx
    split at hy <;> cases hy
    simp only [keyEq, beq_self_eq_true, Bool.true_and, beq_eq_false_iff_ne] at hd
    simp only [eq, beq_eq_false_iff_ne]
    intro he
    apply hd
    have h1 := wrap_ofInt a2.1 a2.2
    have h2 := wrap_ofInt b2.1 b2.2
    rw [he] at h1
    exact h2.symm.trans h1
  all_goals
    cases hx; cases hy
    simp only [keyEq, eq] at hd ⊢
    first
      | (unfold F64.eq at hd ⊢; rw [← hd, Bool.and_comm (!F64.isNaN _), BEq.comm])
      | (simp only [beq_eq_false_iff_ne] at hd ⊢; exact fun h => hd h.symm)

theorem entries_differ {k w : GT} (hk : KeyType k) : ∀ {es : List (GV × GV)} {xs : List (Val × Val)}, TypedEntries k w es →
    es.Pairwise (fun a b => keyEq E b.1 a.1 = false) → fromEntries E es = .ok xs → xs.Pairwise fun a b => eq a.1 b.1 = false
  | [], xs, ht, hp, h => by rw [fromEntries] at h; cases h; exact .nil
  | (a, b) :: es, xs, ht, hp, h => by
    obtain ⟨x, y, ys, h1, h2, h3, rfl⟩ := fromEntries_cons h
    rw [TypedEntries] at ht
    rw [List.pairwise_cons] at hp ⊢
    refine ⟨?_, entries_differ hk ht.2.2 hp.2 h3⟩
    intro e he
    obtain ⟨g, hg, hge⟩ := from_entries_mem h3 e he
    exact keys_differ hk ht.1 ((typedEntries_iff es).1 ht.2.2 g hg).1 (hp.1 g hg) h1 hge
where
  from_entries_mem : ∀ {m : List (GV × GV)} {x : List (Val × Val)}, fromEntries E m = .ok x → ∀ e ∈ x, ∃ g ∈ m, fromReflected E g.1 = .ok e.1
    | [], x, h, e, he => by rw [fromEntries] at h; cases h; cases he
    | (k, v) :: m, x, h, e, he => by
      obtain ⟨p, q, r, h1, h2, h3, rfl⟩ := fromEntries_cons h
      rcases List.mem_cons.1 he with rfl | he
      · exact ⟨_, List.mem_cons_self .., h1⟩
      · obtain ⟨g, hg, h⟩ := from_entries_mem h3 e he
        exact ⟨g, List.mem_cons_of_mem _ hg, h⟩

theorem pairwise_cases {α : Type} {R : α → α → Prop} : ∀ {l : List α}, l.Pairwise R → ∀ {a b : α}, a ∈ l → b ∈ l → a = b ∨ R a b ∨ R b a
  | [], _, a, b, ha, _ => by cases ha
  | x :: l, h, a, b, ha, hb => by
    rw [List.pairwise_cons] at h
    rcases List.mem_cons.1 ha with h1 | h1 <;> rcases List.mem_cons.1 hb with h2 | h2
    · exact .inl (h1.trans h2.symm)
    · subst h1; exact .inr (.inl (h.1 b h2))
    · subst h2; exact .inr (.inr (h.1 a h1))
    · exact pairwise_cases h.2 h1 h2

end Verif.Reflect
