import Verif.Alias.ResolveBase
/-! # The invariant of resolving -/
set_option autoImplicit false
set_option linter.unusedVariables false
set_option linter.unusedSimpArgs false
set_option linter.unusedSectionVars false
namespace Verif.Alias.Res

variable {get : Name → Option Nat} {H0 : Heap}

/-- All types are between what they were and what they are to be, but for those that are being gone through, which are empty. -/
def Ok (get : Name → Option Nat) (H0 H : Heap) (B : Nat → Prop) : Prop :=
  ∀ a, (B a → isBox (H0 a) = true ∧ H a = blank (H0 a)) ∧ (¬ B a → Between get H0 H a)

def Known (get : Name → Option Nat) (H0 : Heap) (x : Nat) : Prop := ∀ n, H0 x = .alias n → ∃ q, get n = some q

theorem stands_nonalias {x : Nat} (h : ¬ IsAlias (H0 x)) : standsFor get H0 x = x := by
  unfold standsFor
  split
  · rename_i n he; exact absurd ⟨n, he⟩ h
  · rfl

theorem stands_alias {x q : Nat} {n : Name} (h : H0 x = .alias n) (hq : get n = some q) : standsFor get H0 x = q := by
  unfold standsFor; rw [h]; simp [hq]

theorem stands_unknown {x : Nat} {n : Name} (h : H0 x = .alias n) (hq : get n = none) : standsFor get H0 x = x := by
  unfold standsFor; rw [h]; simp [hq]

theorem stands_idem (hc : NoChain get H0) (x : Nat) : standsFor get H0 (standsFor get H0 x) = standsFor get H0 x := by
  by_cases ha : IsAlias (H0 x)
  · obtain ⟨n, hn⟩ := ha
    cases hg : get n with
    | none => rw [stands_unknown hn hg, stands_unknown hn hg]
    | some q => rw [stands_alias hn hg, stands_nonalias (hc n q hg)]
  · rw [stands_nonalias ha, stands_nonalias ha]

theorem between_self (H : Heap) (a : Nat) (h : H a = H0 a) : Between get H0 H a :=
  ⟨(H0 a).kids, List.forall₂_same.mpr fun x _ => Or.inl rfl, by rw [h, withKids_kids]⟩

theorem ok_start : Ok get H0 H0 fun _ => False := fun a => ⟨fun h => h.elim, fun _ => between_self H0 a rfl⟩

theorem Between.fits {H : Heap} {a : Nat} {ys : List Nat} (h : List.Forall₂ (fun x y => y = x ∨ y = standsFor get H0 x) (H0 a).kids ys) :
    Fits (H0 a) ys := h.length_eq.symm

theorem Between.kids {H : Heap} {a : Nat} (h : Between get H0 H a) :
    List.Forall₂ (fun x y => y = x ∨ y = standsFor get H0 x) (H0 a).kids (H a).kids := by
  obtain ⟨ys, hf, he⟩ := h
  rw [he, kids_withKids hf.length_eq.symm]; exact hf

theorem Between.eq {H : Heap} {a : Nat} (h : Between get H0 H a) : H a = (H0 a).withKids (H a).kids := by
  obtain ⟨ys, hf, he⟩ := h
  rw [he, kids_withKids hf.length_eq.symm]

theorem Between.len {H : Heap} {a : Nat} (h : Between get H0 H a) : Fits (H0 a) (H a).kids := h.kids.length_eq.symm

theorem Ok.alias {H : Heap} {B : Nat → Prop} (h : Ok get H0 H B) (a : Nat) (n : Name) : H a = .alias n ↔ H0 a = .alias n := by
  by_cases hb : B a
  · obtain ⟨h1, h2⟩ := (h a).1 hb
    rw [h2]
    constructor
    · intro he; exact absurd he (blank_not_alias h1 n)
    · intro he; rw [he] at h1; simp [isBox] at h1
  · have := (h a).2 hb
    rw [this.eq]; exact alias_withKids this.len n

theorem Ok.box {H : Heap} {B : Nat → Prop} (h : Ok get H0 H B) (a : Nat) : isBox (H a) = isBox (H0 a) := by
  by_cases hb : B a
  · obtain ⟨h1, h2⟩ := (h a).1 hb
    rw [h2, isBox_blank h1, h1]
  · have := (h a).2 hb
    rw [this.eq]; exact isBox_withKids this.len

theorem Ok.exact {H : Heap} {B : Nat → Prop} (h : Ok get H0 H B) (a : Nat) : isExact (H a) = isExact (H0 a) := by
  by_cases hb : B a
  · obtain ⟨h1, h2⟩ := (h a).1 hb
    rw [h2, isExact_box (isBox_blank h1), isExact_box h1]
  · have := (h a).2 hb
    rw [this.eq]; exact isExact_withKids this.len

theorem Ok.blank {H : Heap} {B : Nat → Prop} (h : Ok get H0 H B) (a : Nat) (hx : isBox (H0 a) = true) : blank (H a) = blank (H0 a) := by
  by_cases hb : B a
  · rw [((h a).1 hb).2, blank_blank]
  · have := (h a).2 hb
    rw [this.eq]; exact blank_withKids this.len hx

/-- The kids are original ones, what those stand for, or `any`. -/
theorem Ok.kids_mem {H : Heap} {B : Nat → Prop} (h : Ok get H0 H B) (a : Nat) (y : Nat) (hy : y ∈ (H a).kids) :
    (∃ x, x ∈ (H0 a).kids ∧ (y = x ∨ y = standsFor get H0 x)) ∨ y = anyT := by
  by_cases hb : B a
  · obtain ⟨h1, h2⟩ := (h a).1 hb
    rw [h2] at hy
    exact Or.inr (blank_kids h1 y hy)
  · have := ((h a).2 hb).kids
    left
    generalize (H0 a).kids = l at this
    generalize (H a).kids = m at this hy
    clear h hb
    induction this with
    | nil => simp at hy
    | @cons x y' l m hxy _ ih =>
      rcases List.mem_cons.mp hy with rfl | hm
      · exact ⟨x, by simp, hxy⟩
      · obtain ⟨x', hx', he⟩ := ih hm
        exact ⟨x', by simp [hx'], he⟩

theorem map_stands (hc : NoChain get H0) {l m : List Nat} (h : List.Forall₂ (fun x y => y = x ∨ y = standsFor get H0 x) l m) :
    m.map (standsFor get H0) = l.map (standsFor get H0) := by
  induction h with
  | nil => rfl
  | cons hxy _ ih =>
    simp only [List.map_cons, ih]
    congr 1
    rcases hxy with rfl | rfl
    · rfl
    · exact stands_idem hc _

theorem known_of {l m : List Nat} (h : List.Forall₂ (fun x y => y = x ∨ y = standsFor get H0 x) l m) (hk : ∀ y, y ∈ m → Known get H0 y) :
    ∀ x, x ∈ l → Known get H0 x := by
  induction h with
  | nil => intro x hx; simp at hx
  | @cons x y l m hxy _ ih =>
    intro z hz
    rcases List.mem_cons.mp hz with rfl | hz
    · intro n hn
      cases hg : get n with
      | some q => exact ⟨q, rfl⟩
      | none =>
        rw [stands_unknown hn hg] at hxy
        have : y = z := by rcases hxy with h | h <;> exact h
        have := hk y (by simp)
        subst y
        obtain ⟨q, hq⟩ := this n hn
        rw [hg] at hq; cases hq
    · exact ih (fun y hy => hk y (by simp [hy])) z hz

theorem mem_nonalias {l m : List Nat} (h : List.Forall₂ (fun x y => y = x ∨ y = standsFor get H0 x) l m) {x : Nat} (hx : x ∈ l)
    (hn : ¬ IsAlias (H0 x)) : x ∈ m := by
  induction h with
  | nil => simp at hx
  | @cons x' y l m hxy _ ih =>
    rcases List.mem_cons.mp hx with rfl | hx
    · rw [stands_nonalias hn] at hxy
      have : y = x := by rcases hxy with h | h <;> exact h
      simp [this]
    · simp [ih hx]

/-! ## Paths that avoid what is being gone through -/

inductive Path (H0 : Heap) (B : Nat → Prop) : Nat → Nat → Prop where
  | self {a : Nat} (h : ¬ B a) : Path H0 B a a
  | step {a b c : Nat} : Path H0 B a b → c ∈ (H0 b).kids → ¬ B c → Path H0 B a c

theorem Path.last {B : Nat → Prop} {a b : Nat} (h : Path H0 B a b) : ¬ B b := by cases h <;> assumption

theorem Path.first {B : Nat → Prop} {a b : Nat} (h : Path H0 B a b) : ¬ B a := by
  induction h with
  | self h => exact h
  | step _ _ _ ih => exact ih

theorem Path.head {B : Nat → Prop} {a b : Nat} (h : Path H0 B a b) : b = a ∨ ∃ x, x ∈ (H0 a).kids ∧ Path H0 B x b := by
  induction h with
  | self h => exact Or.inl rfl
  | @step b c _ hk hb ih =>
    right
    rcases ih with rfl | ⟨x, hx, hp⟩
    · exact ⟨c, hk, .self hb⟩
    · exact ⟨x, hx, .step hp hk hb⟩

/-- The part of a path after it leaves `p` for the last time -/
theorem Path.leave {B : Nat → Prop} {p b : Nat} (h : Path H0 B p b) :
    b = p ∨ ∃ x, x ∈ (H0 p).kids ∧ Path H0 (fun z => B z ∨ z = p) x b := by
  induction h with
  | self h => exact Or.inl rfl
  | @step b c _ hk hb ih =>
    by_cases hc : c = p
    · exact Or.inl hc
    · right
      have hc' : ¬ (B c ∨ c = p) := fun h => h.elim hb hc
      rcases ih with rfl | ⟨x, hx, hp⟩
      · exact ⟨c, hk, .self hc'⟩
      · exact ⟨x, hx, .step hp hk hc'⟩

theorem Path.of_reached {a b : Nat} (h : Reached H0 a b) : Path H0 (fun _ => False) a b := by
  induction h with
  | self => exact .self not_false
  | part _ hk ih => exact .step ih hk not_false

theorem Path.alias {B : Nat → Prop} {a b : Nat} (h : Path H0 B a b) (ha : IsAlias (H0 a)) : b = a := by
  rcases h.head with h | ⟨x, hx, _⟩
  · exact h
  · obtain ⟨n, hn⟩ := ha; rw [hn] at hx; simp [Node.kids, Node.parts] at hx

end Verif.Alias.Res
