import Verif.Value.Eq
/-!
# Comparison of values: lemmas
-/
namespace Verif.Value

/-- A comparison that is always decided on `S` is antisymmetric, transitive and yields `eq` exactly for values related by
`E`. -/
structure OrdLaws {α : Type} (S : α → Prop) (c : α → α → Option Ordering) (E : α → α → Prop) : Prop where
  dec : ∀ a b, S a → S b → (c a b).isSome = true
  swap : ∀ a b, S a → S b → c b a = (c a b).map Ordering.swap
  le : ∀ a b d, S a → S b → S d → c a b ≠ some .gt → c b d ≠ some .gt → c a d ≠ some .gt
  zero : ∀ a b, S a → S b → (c a b = some .eq ↔ E a b)

namespace OrdLaws
variable {α : Type} {S : α → Prop} {c : α → α → Option Ordering} {E : α → α → Prop}

theorem refl_eq (L : OrdLaws S c E) {a} (ha : S a) : c a a = some .eq := by
  have h := L.swap a a ha ha
  have hd := L.dec a a ha ha
  match hc : c a a with
  | none => rw [hc] at hd; cases hd
  | some .eq => rfl
  | some .lt => rw [hc] at h; cases h
  | some .gt => rw [hc] at h; cases h

theorem lt_of_lt_le (L : OrdLaws S c E) {a b d} (ha : S a) (hb : S b) (hd : S d) (h1 : c a b = some .lt)
    (h2 : c b d ≠ some .gt) : c a d = some .lt := by
  have h := L.le a b d ha hb hd (by rw [h1]; simp) h2
  have hs := L.dec a d ha hd
  match hc : c a d with
  | none => rw [hc] at hs; cases hs
  | some .lt => rfl
  | some .gt => exact absurd hc h
  | some .eq =>
    have h3 := L.swap a d ha hd
    rw [hc] at h3
    have h4 := L.le b d a hb hd ha h2 (by rw [h3]; simp)
    rw [L.swap a b ha hb, h1] at h4
    simp at h4

theorem lt_of_le_lt (L : OrdLaws S c E) {a b d} (ha : S a) (hb : S b) (hd : S d) (h1 : c a b ≠ some .gt)
    (h2 : c b d = some .lt) : c a d = some .lt := by
  have h := L.le a b d ha hb hd h1 (by rw [h2]; simp)
  have hs := L.dec a d ha hd
  match hc : c a d with
  | none => rw [hc] at hs; cases hs
  | some .lt => rfl
  | some .gt => exact absurd hc h
  | some .eq =>
    have h3 := L.swap a d ha hd
    rw [hc] at h3
    have h4 := L.le d a b hd ha hb (by rw [h3]; simp) h1
    rw [L.swap b d hb hd, h2] at h4
    simp at h4

theorem eq_of_eq_eq (L : OrdLaws S c E) {a b d} (ha : S a) (hb : S b) (hd : S d) (h1 : c a b = some .eq)
    (h2 : c b d = some .eq) : c a d = some .eq := by
  have h := L.le a b d ha hb hd (by rw [h1]; simp) (by rw [h2]; simp)
  have hs := L.dec a d ha hd
  match hc : c a d with
  | none => rw [hc] at hs; cases hs
  | some .eq => rfl
  | some .gt => exact absurd hc h
  | some .lt =>
    have h4 := L.le d b a hd hb ha (by rw [L.swap b d hb hd, h2]; simp) (by rw [L.swap a b ha hb, h1]; simp)
    rw [L.swap a d ha hd, hc] at h4
    simp at h4
end OrdLaws

/-! ### Lexicographic comparison -/

def lexO {α : Type} (c : α → α → Option Ordering) : List α → List α → Option Ordering
  | [], [] => some .eq
  | [], _ :: _ => some .lt
  | _ :: _, [] => some .gt
  | a :: as, b :: bs =>
    match c a b with
    | none => none
    | some .eq => lexO c as bs
    | some o => some o

theorem lex_laws {α : Type} {S : α → Prop} {c : α → α → Option Ordering} {E : α → α → Prop} (L : OrdLaws S c E) :
    OrdLaws (fun as : List α => ∀ a ∈ as, S a) (lexO c) (List.Forall₂ E) where
  dec as bs ha hb := by
    induction as generalizing bs with
    | nil => cases bs <;> rfl
    | cons a as ih =>
      cases bs with
      | nil => rfl
      | cons b bs =>
        have hd := L.dec a b (ha a (by simp)) (hb b (by simp))
        rw [lexO]
        match hc : c a b with
        | none => rw [hc] at hd; cases hd
        | some .eq => exact ih bs (fun x h => ha x (by simp [h])) (fun x h => hb x (by simp [h]))
        | some .lt => rfl
        | some .gt => rfl
  swap as bs ha hb := by
    induction as generalizing bs with
    | nil => cases bs <;> rfl
    | cons a as ih =>
      cases bs with
      | nil => rfl
      | cons b bs =>
        have hd := L.swap a b (ha a (by simp)) (hb b (by simp))
        rw [lexO, lexO, hd]
        match hc : c a b with
        | none => rfl
        | some .eq => exact ih bs (fun x h => ha x (by simp [h])) (fun x h => hb x (by simp [h]))
        | some .lt => rfl
        | some .gt => rfl
  le as bs ds ha hb hd h1 h2 := by
    induction as generalizing bs ds with
    | nil => cases ds <;> simp [lexO]
    | cons a as ih =>
      cases bs with
      | nil => simp [lexO] at h1
      | cons b bs =>
        cases ds with
        | nil => simp [lexO] at h2
        | cons d ds =>
          have sa := ha a (by simp)
          have sb := hb b (by simp)
          have sd := hd d (by simp)
          rw [lexO] at h1 h2 ⊢
          have da := L.dec a b sa sb
          have db := L.dec b d sb sd
          match hc1 : c a b, hc2 : c b d with
          | none, _ => rw [hc1] at da; cases da
          | _, none => rw [hc2] at db; cases db
          | some .gt, _ => rw [hc1] at h1; exact absurd rfl h1
          | _, some .gt => rw [hc2] at h2; exact absurd rfl h2
          | some .eq, some .eq =>
            rw [hc1] at h1
            rw [hc2] at h2
            rw [L.eq_of_eq_eq sa sb sd hc1 hc2]
            exact ih bs ds (fun x h => ha x (by simp [h])) (fun x h => hb x (by simp [h]))
              (fun x h => hd x (by simp [h])) h1 h2
          | some .lt, some .lt => rw [L.lt_of_lt_le sa sb sd hc1 (by rw [hc2]; simp)]; simp
          | some .lt, some .eq => rw [L.lt_of_lt_le sa sb sd hc1 (by rw [hc2]; simp)]; simp
          | some .eq, some .lt => rw [L.lt_of_le_lt sa sb sd (by rw [hc1]; simp) hc2]; simp
  zero as bs ha hb := by
    induction as generalizing bs with
    | nil => cases bs <;> simp [lexO]
    | cons a as ih =>
      cases bs with
      | nil => simp [lexO]
      | cons b bs =>
        have sa := ha a (by simp)
        have sb := hb b (by simp)
        have hz := L.zero a b sa sb
        rw [lexO, List.forall₂_cons, ← hz, ← ih bs (fun x h => ha x (by simp [h])) (fun x h => hb x (by simp [h]))]
        match hc : c a b with
        | none => simp
        | some .eq => simp
        | some .lt => simp
        | some .gt => simp

/-! ### Bytes -/

def byteCmp (a b : UInt8) : Option Ordering := some (three (b < a) (a < b))

theorem three_int {x y : Int} : three (decide (y < x)) (decide (x < y)) = if x < y then .lt else if y < x then .gt else .eq := by
  unfold three
  by_cases h1 : y < x
  · simp [h1]; omega
  · simp [h1]

/-- The comparison of an integer key. -/
theorem int_laws {α : Type} (f : α → Int) (S : α → Prop) (c : α → α → Option Ordering) (E : α → α → Prop)
    (hc : ∀ a b, S a → S b → c a b = some (three (decide (f b < f a)) (decide (f a < f b))))
    (hE : ∀ a b, S a → S b → (f a = f b ↔ E a b)) : OrdLaws S c E where
  dec a b ha hb := by rw [hc a b ha hb]; rfl
  swap a b ha hb := by
    rw [hc a b ha hb, hc b a hb ha, three_int, three_int]
    by_cases h1 : f a < f b
    · have : ¬ f b < f a := by omega
      simp [h1, this]
    · by_cases h2 : f b < f a <;> simp [h1, h2]
  le a b d ha hb hd h1 h2 := by
    rw [hc a b ha hb, three_int] at h1
    rw [hc b d hb hd, three_int] at h2
    rw [hc a d ha hd, three_int]
    have e1 : f a ≤ f b := by
      by_cases h : f a < f b
      · omega
      · by_cases h' : f b < f a
        · simp [h, h'] at h1
        · omega
    have e2 : f b ≤ f d := by
      by_cases h : f b < f d
      · omega
      · by_cases h' : f d < f b
        · simp [h, h'] at h2
        · omega
    have : ¬ f d < f a := by omega
    by_cases h : f a < f d <;> simp [h, this]
  zero a b ha hb := by
    rw [hc a b ha hb, three_int, ← hE a b ha hb]
    by_cases h : f a < f b
    · simp [h]; omega
    · by_cases h' : f b < f a
      · simp [h, h']; omega
      · simp [h, h']; omega

theorem byte_laws : OrdLaws (fun _ : UInt8 => True) byteCmp (fun a b => a = b) := by
  apply int_laws (fun b => (b.toNat : Int))
  · intro a b _ _
    unfold byteCmp
    congr 3 <;> simp [UInt8.lt_iff_toNat_lt]
  · intro a b _ _
    constructor
    · intro h; exact UInt8.toNat_inj.1 (by omega)
    · rintro rfl; rfl

theorem strLt_lex (a b : Str) : strLt a b = decide (lexO byteCmp a b = some .lt) := by
  induction a generalizing b with
  | nil => cases b <;> simp [strLt, lexO]
  | cons x xs ih =>
    cases b with
    | nil => simp [strLt, lexO]
    | cons y ys =>
      simp only [strLt, lexO, byteCmp, three, ih]
      by_cases h1 : y < x
      · have : ¬ x < y := by rw [UInt8.lt_iff_toNat_lt] at *; omega
        simp [h1, this]
      · by_cases h2 : x < y <;> simp [h1, h2]

theorem strCmp_lex (a b : Str) : some (three (strLt b a) (strLt a b)) = lexO byteCmp a b := by
  have L := lex_laws byte_laws
  rw [strLt_lex, strLt_lex, L.swap a b (by simp) (by simp)]
  have := L.dec a b (by simp) (by simp)
  match hc : lexO byteCmp a b with
  | none => rw [hc] at this; cases this
  | some .lt => simp [three]
  | some .eq => simp [three]
  | some .gt => simp [three]

theorem lenOrd_succ (n m : Nat) : lenOrd (n + 1) (m + 1) = lenOrd n m := by
  unfold lenOrd; simp

theorem bin_lex (a b : List UInt8) : some (binLoop (lenOrd a.length b.length) a b) = lexO byteCmp a b := by
  induction a generalizing b with
  | nil => cases b <;> simp [binLoop, lexO, lenOrd]
  | cons x xs ih =>
    cases b with
    | nil => simp [binLoop, lexO, lenOrd]
    | cons y ys =>
      rw [List.length_cons, List.length_cons, lenOrd_succ, binLoop, lexO, byteCmp]
      by_cases h1 : y < x
      · have h2 := UInt8.lt_iff_toNat_lt.1 h1
        have e1 : ((x.toNat : Int) - y.toNat ≠ 0) := by omega
        have e2 : ((x.toNat : Int) - y.toNat > 0) := by omega
        rw [if_pos e1, if_pos e2]; simp [three, h1]
      · by_cases h2 : x < y
        · have h3 := UInt8.lt_iff_toNat_lt.1 h2
          have e1 : ((x.toNat : Int) - y.toNat ≠ 0) := by omega
          have e2 : ¬ ((x.toNat : Int) - y.toNat > 0) := by omega
          rw [if_pos e1, if_neg e2]; simp [three, h1, h2]
        · have e1 : (x.toNat : Int) - y.toNat = 0 := by
            rw [UInt8.lt_iff_toNat_lt] at h1 h2; omega
          simp [three, h1, h2, e1, ih]

theorem cmpSlice_lex {as bs : List Val} (ha : ∀ a ∈ as, a.comparable = true) :
    cmpSlice (lenOrd as.length bs.length) as bs = lexO cmp as bs := by
  induction as generalizing bs with
  | nil => cases bs <;> simp [cmpSlice, lexO, lenOrd]
  | cons x xs ih =>
    cases bs with
    | nil => simp [cmpSlice, lexO, lenOrd]
    | cons y ys =>
      rw [List.length_cons, List.length_cons, lenOrd_succ, cmpSlice, lexO, ha x (by simp), ih (fun a h => ha a (by simp [h]))]
      rfl

/-! ### Kinds -/

/-- The kinds of values that are comparable among themselves: scalars of one type, and arrays of one kind (of any
depth). -/
inductive Kind where
  | bool | int | float | str | bin
  | arr (k : Kind)

/-- `v` is `nil` or a value of the kind; no NaN. -/
def HasKind : Kind → Val → Prop
  | _, .nil => True
  | .bool, .bool _ => True
  | .int, .int _ => True
  | .float, .float f => f.isNaN = false
  | .str, .str _ => True
  | .bin, .bin _ => True
  | .arr k, .arr vs => ∀ v ∈ vs, HasKind k v
  | _, _ => False

theorem HasKind.comparable {k : Kind} {v : Val} (h : HasKind k v) : v.comparable = true := by
  cases k <;> cases v <;> first | rfl | exact absurd h (by simp [HasKind])

theorem slt_toInt (a b : BitVec 64) : a.slt b = decide (a.toInt < b.toInt) := by
  rw [BitVec.slt_eq_decide]

/-- Adding `nil` below everything. -/
theorem with_nil {T : Val → Prop} (hcmp : ∀ v, T v → cmp v .nil = some .gt)
    (heq : ∀ v, T v → eq .nil v = false ∧ eq v .nil = false)
    (hnil : ∀ v, T v → cmp .nil v = some .lt)
    (L : OrdLaws T cmp fun a b => eq a b = true) : OrdLaws (fun v => v = .nil ∨ T v) cmp (fun a b => eq a b = true) where
  dec a b ha hb := by
    rcases ha with rfl | ha <;> rcases hb with rfl | hb
    · rfl
    · rw [hnil b hb]; rfl
    · rw [hcmp a ha]; rfl
    · exact L.dec a b ha hb
  swap a b ha hb := by
    rcases ha with rfl | ha <;> rcases hb with rfl | hb
    · rfl
    · rw [hnil b hb, hcmp b hb]; rfl
    · rw [hcmp a ha, hnil a ha]; rfl
    · exact L.swap a b ha hb
  le a b d ha hb hd h1 h2 := by
    rcases ha with rfl | ha
    · rcases hd with rfl | hd
      · simp [cmp]
      · rw [hnil d hd]; simp
    · rcases hb with rfl | hb
      · exact absurd (hcmp a ha) h1
      · rcases hd with rfl | hd
        · exact absurd (hcmp b hb) h2
        · exact L.le a b d ha hb hd h1 h2
  zero a b ha hb := by
    rcases ha with rfl | ha <;> rcases hb with rfl | hb
    · simp [cmp, eq]
    · rw [hnil b hb, (heq b hb).1]; simp
    · rw [hcmp a ha, (heq a ha).2]; simp
    · exact L.zero a b ha hb

theorem OrdLaws.mono {α : Type} {S T : α → Prop} {c : α → α → Option Ordering} {E : α → α → Prop} (L : OrdLaws S c E)
    (h : ∀ a, T a → S a) : OrdLaws T c E where
  dec a b ha hb := L.dec a b (h a ha) (h b hb)
  swap a b ha hb := L.swap a b (h a ha) (h b hb)
  le a b d ha hb hd := L.le a b d (h a ha) (h b hb) (h d hd)
  zero a b ha hb := L.zero a b (h a ha) (h b hb)

/-- Laws transported along a constructor. -/
theorem ctor_laws {α : Type} {S : α → Prop} {c : α → α → Option Ordering} {E : α → α → Prop} (L : OrdLaws S c E)
    (f : α → Val) (hc : ∀ a b, S a → S b → cmp (f a) (f b) = c a b)
    (hE : ∀ a b, S a → S b → (eq (f a) (f b) = true ↔ E a b)) :
    OrdLaws (fun v => ∃ a, v = f a ∧ S a) cmp (fun a b => eq a b = true) where
  dec := by rintro _ _ ⟨a, rfl, ha⟩ ⟨b, rfl, hb⟩; rw [hc a b ha hb]; exact L.dec a b ha hb
  swap := by rintro _ _ ⟨a, rfl, ha⟩ ⟨b, rfl, hb⟩; rw [hc a b ha hb, hc b a hb ha]; exact L.swap a b ha hb
  le := by
    rintro _ _ _ ⟨a, rfl, ha⟩ ⟨b, rfl, hb⟩ ⟨d, rfl, hd⟩
    rw [hc a b ha hb, hc b d hb hd, hc a d ha hd]; exact L.le a b d ha hb hd
  zero := by rintro _ _ ⟨a, rfl, ha⟩ ⟨b, rfl, hb⟩; rw [hc a b ha hb, hE a b ha hb]; exact L.zero a b ha hb

theorem forall₂_eq_iff {α : Type} {a b : List α} : List.Forall₂ (fun x y => x = y) a b ↔ a = b := by
  rw [List.forall₂_eq_eq_eq]

theorem kind_laws (k : Kind) : OrdLaws (HasKind k) cmp (fun a b => eq a b = true) := by
  induction k with
  | bool =>
    refine (with_nil (T := fun v => ∃ b, v = .bool b ∧ True) ?_ ?_ ?_ (ctor_laws (c := fun a b => cmp (.bool a) (.bool b))
      (E := fun a b => a = b) (int_laws (fun b => if b then 1 else 0) (fun _ => True) _ _ ?_ ?_) _ ?_ ?_)).mono ?_
    · rintro _ ⟨b, rfl, _⟩; rfl
    · rintro _ ⟨b, rfl, _⟩; exact ⟨rfl, rfl⟩
    · rintro _ ⟨b, rfl, _⟩; rfl
    · intro a b _ _; cases a <;> cases b <;> rfl
    · intro a b _ _; cases a <;> cases b <;> simp
    · intro a b _ _; rfl
    · intro a b _ _; simp [eq]
    · intro v hv
      cases v <;> simp_all [HasKind]
  | int =>
    refine (with_nil (T := fun v => ∃ b, v = .int b ∧ True) ?_ ?_ ?_ (ctor_laws (c := fun a b => cmp (.int a) (.int b))
      (E := fun a b => a = b) (int_laws (fun b => b.toInt) (fun _ => True) _ _ ?_ ?_) _ ?_ ?_)).mono ?_
    · rintro _ ⟨b, rfl, _⟩; rfl
    · rintro _ ⟨b, rfl, _⟩; exact ⟨rfl, rfl⟩
    · rintro _ ⟨b, rfl, _⟩; rfl
    · intro a b _ _; rw [cmp, slt_toInt, slt_toInt]
    · intro a b _ _; exact ⟨BitVec.eq_of_toInt_eq, fun h => by rw [h]⟩
    · intro a b _ _; rfl
    · intro a b _ _; simp [eq]
    · intro v hv
      cases v <;> simp_all [HasKind]
  | float =>
    refine (with_nil (T := fun v => ∃ b, v = .float b ∧ b.isNaN = false) ?_ ?_ ?_ (ctor_laws
      (c := fun a b => cmp (.float a) (.float b))
      (E := fun a b => F64.eq a b = true) (int_laws (fun b => F64.key b) (fun b => F64.isNaN b = false) _ _ ?_ ?_) _ ?_ ?_)).mono ?_
    · rintro _ ⟨b, rfl, _⟩; rfl
    · rintro _ ⟨b, rfl, _⟩; exact ⟨rfl, rfl⟩
    · rintro _ ⟨b, rfl, _⟩; rfl
    · intro a b ha hb; rw [cmp, F64.lt, F64.lt, ha, hb]; rfl
    · intro a b ha hb; rw [F64.eq_iff]; simp [ha, hb]
    · intro a b _ _; rfl
    · intro a b _ _; simp [eq]
    · intro v hv
      cases v <;> simp_all [HasKind]
  | str =>
    refine (with_nil (T := fun v => ∃ b, v = .str b ∧ ∀ x ∈ b, True) ?_ ?_ ?_ (ctor_laws (lex_laws byte_laws) _ ?_ ?_)).mono ?_
    · rintro _ ⟨b, rfl, _⟩; rfl
    · rintro _ ⟨b, rfl, _⟩; exact ⟨rfl, rfl⟩
    · rintro _ ⟨b, rfl, _⟩; rfl
    · intro a b _ _; rw [cmp, strCmp_lex]
    · intro a b _ _; rw [forall₂_eq_iff]; simp [eq]
    · intro v hv
      cases v <;> simp_all [HasKind]
  | bin =>
    refine (with_nil (T := fun v => ∃ b, v = .bin b ∧ ∀ x ∈ b, True) ?_ ?_ ?_ (ctor_laws (lex_laws byte_laws) _ ?_ ?_)).mono ?_
    · rintro _ ⟨b, rfl, _⟩; rfl
    · rintro _ ⟨b, rfl, _⟩; exact ⟨rfl, rfl⟩
    · rintro _ ⟨b, rfl, _⟩; rfl
    · intro a b _ _; rw [cmp, bin_lex]
    · intro a b _ _; rw [forall₂_eq_iff]; simp [eq]
    · intro v hv
      cases v <;> simp_all [HasKind]
  | arr k ih =>
    refine (with_nil (T := fun v => ∃ b, v = .arr b ∧ ∀ x ∈ b, HasKind k x) ?_ ?_ ?_ (ctor_laws (lex_laws ih) _ ?_ ?_)).mono ?_
    · rintro _ ⟨b, rfl, _⟩; rfl
    · rintro _ ⟨b, rfl, _⟩; exact ⟨rfl, rfl⟩
    · rintro _ ⟨b, rfl, _⟩; rfl
    · intro a b ha _; rw [cmp, cmpSlice_lex fun x hx => (ha x hx).comparable]
    · intro a b _ _; rw [eq, eqSlice_iff]
    · intro v hv
      cases v <;> simp_all [HasKind]

end Verif.Value
