import Verif.Types.NewConv
import Verif.Types.NewSpec
import Verif.Types.Props
import Verif.Text.Number
import Verif.Binary.Props
/-!
# Lemmas about the conversions
-/
set_option autoImplicit false
set_option linter.unusedVariables false
set_option linter.unusedSimpArgs false
namespace Verif.Types
open Verif.Value Verif.Text

theorem digitVal_iff {c : UInt8} {d : Nat} : digitVal c = some d ↔ Digit c d := by
  unfold digitVal Digit
  dsimp only
  have := c.toNat_lt
  split
  · simp; omega
  · split
    · simp; omega
    · split
      · simp; omega
      · simp; omega

theorem parseDigits_iff {radix : Nat} : ∀ {cs : Str} {acc n : Nat}, parseDigits radix acc cs = some n ↔
    ∃ ds, List.Forall₂ Digit cs ds ∧ (∀ d ∈ ds, d < radix) ∧ n = ds.foldl (fun n d => n * radix + d) acc
  | [], acc, n => by
    rw [parseDigits]
    constructor
    · rintro ⟨⟩; exact ⟨[], .nil, by simp, rfl⟩
    · rintro ⟨ds, h, _, e⟩; cases h; rw [e]; rfl
  | c :: cs, acc, n => by
    rw [parseDigits]
    constructor
    · intro h
      split at h
      · rename_i d hd
        split at h
        · rename_i hlt
          obtain ⟨ds, h1, h2, h3⟩ := parseDigits_iff.1 h
          refine ⟨d :: ds, .cons (digitVal_iff.1 hd) h1, ?_, h3⟩
          intro x hx
          rcases List.mem_cons.1 hx with rfl | hx
          exacts [hlt, h2 x hx]
        · cases h
      · cases h
    · rintro ⟨ds, h, h2, e⟩
      cases h with
      | cons h1 h3 =>
        rename_i d ds
        rw [digitVal_iff.2 h1]
        dsimp only
        rw [if_pos (h2 d (by simp))]
        exact parseDigits_iff.2 ⟨ds, h3, fun x hx => h2 x (by simp [hx]), e⟩

theorem unsigned_iff {radix : Nat} {t : Str} {n : Nat} : (if t = [] then none else parseDigits radix 0 t) = some n ↔
    ∃ ds, ds ≠ [] ∧ List.Forall₂ Digit t ds ∧ (∀ d ∈ ds, d < radix) ∧ n = valueOf radix ds := by
  split
  · rename_i h; subst h
    constructor
    · rintro ⟨⟩
    · rintro ⟨ds, h, h1, _⟩; cases h1; exact absurd rfl h
  · rename_i h
    rw [parseDigits_iff]
    constructor
    · rintro ⟨ds, h1, h2, h3⟩
      exact ⟨ds, by rintro rfl; cases h1; exact h rfl, h1, h2, h3⟩
    · rintro ⟨ds, _, h1, h2, h3⟩; exact ⟨ds, h1, h2, h3⟩

theorem digit_sign {c : UInt8} {d : Nat} (h : Digit c d) : c ≠ 43 ∧ c ≠ 45 := by
  constructor <;> (rintro rfl; unfold Digit at h; simp at h; omega)

theorem parseRadix_iff {radix : Nat} {s : Str} {n : Int} : parseRadix radix s = some n ↔ Numeral radix s n ∧ -2 ^ 63 ≤ n ∧ n < 2 ^ 63 := by
  have key : ∀ {t : Str} {f : Nat → Option Int}, ((if t = [] then none else parseDigits radix 0 t).bind f = some n ↔
      ∃ ds, ds ≠ [] ∧ List.Forall₂ Digit t ds ∧ (∀ d ∈ ds, d < radix) ∧ f (valueOf radix ds) = some n) := by
    intro t f
    rw [Option.bind_eq_some_iff]
    constructor
    · rintro ⟨m, h1, h2⟩
      obtain ⟨ds, a, b, c, rfl⟩ := unsigned_iff.1 h1
      exact ⟨ds, a, b, c, h2⟩
    · rintro ⟨ds, a, b, c, h⟩
      exact ⟨_, unsigned_iff.2 ⟨ds, a, b, c, rfl⟩, h⟩
  unfold parseRadix
  split
  · rename_i t
    rw [key]
    constructor
    · rintro ⟨ds, a, b, c, h⟩
      split at h <;> cases h
      exact ⟨⟨t, ds, a, b, c, .inr ⟨rfl, rfl⟩⟩, by omega, by omega⟩
    · rintro ⟨⟨cs, ds, a, b, c, ⟨rfl | h, e⟩ | ⟨h, e⟩⟩, h1, h2⟩
      · cases b with | cons b _ => exact absurd rfl (digit_sign b).2
      · cases h
      · cases h
        exact ⟨ds, a, b, c, by rw [if_pos (by omega), e]⟩
  · rename_i t
    rw [key]
    constructor
    · rintro ⟨ds, a, b, c, h⟩
      split at h <;> cases h
      exact ⟨⟨t, ds, a, b, c, .inl ⟨.inr rfl, rfl⟩⟩, by omega, by omega⟩
    · rintro ⟨⟨cs, ds, a, b, c, ⟨rfl | h, e⟩ | ⟨h, e⟩⟩, h1, h2⟩
      · cases b with | cons b _ => exact absurd rfl (digit_sign b).1
      · cases h
        exact ⟨ds, a, b, c, by rw [if_pos (by omega), e]⟩
      · cases h
  · rename_i h45 h43
    rw [key]
    constructor
    · rintro ⟨ds, a, b, c, h⟩
      split at h <;> cases h
      exact ⟨⟨s, ds, a, b, c, .inl ⟨.inl rfl, rfl⟩⟩, by omega, by omega⟩
    · rintro ⟨⟨cs, ds, a, b, c, ⟨rfl | h, e⟩ | ⟨h, e⟩⟩, h1, h2⟩
      · exact ⟨ds, a, b, c, by rw [if_pos (by omega), e]⟩
      · exact absurd h (h43 _)
      · exact absurd h (h45 _)

theorem radixChar_digit {upper : Bool} {d : Nat} (h : d < 16) : Digit (radixChar upper d) d := by
  have : ∀ d : Fin 16, ∀ u : Bool, Text.digitVal (radixChar u d) = some d.1 := by decide
  exact digitVal_iff.1 (this ⟨d, h⟩ upper)

theorem valueOf_snoc (radix : Nat) (ds : List Nat) (d : Nat) : valueOf radix (ds ++ [d]) = valueOf radix ds * radix + d := by
  simp [valueOf]

theorem radixDigits_spec {base : Nat} (hb : 2 ≤ base) (hb' : base ≤ 16) (upper : Bool) (n : Nat) :
    ∃ ds, ds ≠ [] ∧ List.Forall₂ Digit (radixDigits base upper n) ds ∧ (∀ d ∈ ds, d < base) ∧ valueOf base ds = n := by
  fun_induction radixDigits base upper n with
  | case1 n h => exact ⟨[n], by simp, .cons (radixChar_digit (by omega)) .nil, by simp; omega, by simp [valueOf]⟩
  | case2 n h ih =>
    obtain ⟨ds, h1, h2, h3, h4⟩ := ih
    have hm : n % base < base := Nat.mod_lt _ (by omega)
    refine ⟨ds ++ [n % base], by simp, List.rel_append h2 (.cons (radixChar_digit (by omega)) .nil), ?_, ?_⟩
    · intro d hd
      rcases List.mem_append.1 hd with hd | hd
      · exact h3 d hd
      · simp at hd; omega
    · rw [valueOf_snoc, h4, Nat.mul_comm]; exact Nat.div_add_mod n base

theorem formatRadix_numeral {base : Nat} (hb : 2 ≤ base) (hb' : base ≤ 16) (upper : Bool) (v : Int) : Numeral base (formatRadix base upper v) v := by
  obtain ⟨ds, h1, h2, h3, h4⟩ := radixDigits_spec hb hb' upper v.natAbs
  refine ⟨_, ds, h1, h2, h3, ?_⟩
  unfold formatRadix
  split
  · exact .inr ⟨rfl, by omega⟩
  · exact .inl ⟨.inl rfl, by omega⟩

theorem formatInt_radix (v : Int) : formatInt v = formatRadix 10 false v := by
  have : ∀ n, digits n = radixDigits 10 false n := by
    intro n
    fun_induction digits n with
    | case1 n h => rw [radixDigits, if_pos (by omega), radixChar, if_pos h]
    | case2 n h ih => rw [radixDigits, if_neg (by omega), ih, radixChar, if_pos (by omega)]
  unfold formatInt formatRadix
  rw [this]
  rfl

theorem numeral_unique {radix : Nat} {s : Str} {m n : Int} (h : Numeral radix s m) (h' : Numeral radix s n) : m = n := by
  have key : ∀ {cs : Str} {ds es : List Nat}, List.Forall₂ Digit cs ds → List.Forall₂ Digit cs es → ds = es := by
    intro cs
    induction cs with
    | nil => intro ds es h1 h2; cases h1; cases h2; rfl
    | cons c cs ih =>
      intro ds es h1 h2
      cases h1 with | cons a b => cases h2 with | cons a' b' =>
      rw [ih b b', Option.some.inj ((digitVal_iff.2 a).symm.trans (digitVal_iff.2 a'))]
  obtain ⟨cs, ds, a, b, c, e⟩ := h
  obtain ⟨cs', ds', a', b', c', e'⟩ := h'
  have sg : ∀ {c : UInt8} {cs : Str} {ds : List Nat}, List.Forall₂ Digit (c :: cs) ds → c ≠ 43 ∧ c ≠ 45 := fun h => by cases h with | cons h _ => exact digit_sign h
  rcases e with ⟨rfl | rfl, rfl⟩ | ⟨rfl, rfl⟩ <;> rcases e' with ⟨e | e, rfl⟩ | ⟨e, rfl⟩ <;> first
    | (subst e; rw [key b b'])
    | (cases e; rw [key b b'])
    | (subst e; exact absurd rfl (sg b).1)
    | (subst e; exact absurd rfl (sg b).2)
    | (rw [← e] at b'; exact absurd rfl (sg b').1)
    | (rw [← e] at b'; exact absurd rfl (sg b').2)
    | cases e

end Verif.Types
