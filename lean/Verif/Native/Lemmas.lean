import Verif.Native.Spec
import Verif.Value.Eq
/-!
# Native values: lemmas
-/
set_option autoImplicit false
set_option linter.unusedVariables false
set_option linter.unusedSimpArgs false
namespace Verif.Native

/-! ## Basic values -/

theorem basic_wf {v w : Basic} (h : Value.eq v.val w.val = true) : Value.WF v.val ∧ Value.WF w.val := by
  cases v <;> cases w <;> simp_all [Basic.val, Value.WF, Value.eq, Value.F64.eq]

theorem basic_symm {v w : Basic} (h : Value.eq v.val w.val = true) : Value.eq w.val v.val = true :=
  Value.laws.symm _ _ (basic_wf h).1 (basic_wf h).2 h

theorem basic_trans {u v w : Basic} (h : Value.eq u.val v.val = true) (h' : Value.eq v.val w.val = true) : Value.eq u.val w.val = true :=
  Value.laws.trans _ _ _ (basic_wf h).1 (basic_wf h).2 (basic_wf h').2 h h'

theorem basic_refl {v w : Basic} (h : Value.eq v.val w.val = true) : Value.eq v.val v.val = true := Value.laws.refl _ (basic_wf h).1

theorem basic_hash {v w : Basic} (h : Value.eq v.val w.val = true) : Value.hash v.val = Value.hash w.val :=
  Value.laws.hash _ _ (basic_wf h).1 (basic_wf h).2 h

/-! ## Deep equality -/

mutual
theorem Like.symm {R : Nat → Nat → Prop} {a b : G} : Like R a b → Like (fun p q => R q p) b a
  | .basic t h => .basic t (basic_symm h)
  | .named t h => .named t (basic_symm h)
  | .uintptr n => .uintptr n
  | .func t => .func t
  | .chan t p => .chan t p
  | .nil t => .nil t
  | .same t p => .same t p
  | .ptr t h => .ptr t h
  | .struct t h => .struct t h.symm
  | .array t h => .array t h.symm
  | .nilSlice t => .nilSlice t
  | .slice t h => .slice t h.symm
  | .nilIface => .nilIface
  | .iface h => .iface h.symm
theorem LikeFields.symm {R : Nat → Nat → Prop} {a b : List (Bool × G)} : LikeFields R a b → LikeFields (fun p q => R q p) b a
  | .nil => .nil
  | .cons e h hs => .cons e h.symm hs.symm
theorem LikeAll.symm {R : Nat → Nat → Prop} {a b : List G} : LikeAll R a b → LikeAll (fun p q => R q p) b a
  | .nil => .nil
  | .cons h hs => .cons h.symm hs.symm
end

mutual
theorem Like.mono {R S : Nat → Nat → Prop} (m : ∀ p q, R p q → S p q) {a b : G} : Like R a b → Like S a b
  | .basic t h => .basic t h
  | .named t h => .named t h
  | .uintptr n => .uintptr n
  | .func t => .func t
  | .chan t p => .chan t p
  | .nil t => .nil t
  | .same t p => .same t p
  | .ptr t h => .ptr t (m _ _ h)
  | .struct t h => .struct t (h.mono m)
  | .array t h => .array t (h.mono m)
  | .nilSlice t => .nilSlice t
  | .slice t h => .slice t (h.mono m)
  | .nilIface => .nilIface
  | .iface h => .iface (h.mono m)
theorem LikeFields.mono {R S : Nat → Nat → Prop} (m : ∀ p q, R p q → S p q) {a b : List (Bool × G)} : LikeFields R a b → LikeFields S a b
  | .nil => .nil
  | .cons e h hs => .cons e (h.mono m) (hs.mono m)
theorem LikeAll.mono {R S : Nat → Nat → Prop} (m : ∀ p q, R p q → S p q) {a b : List G} : LikeAll R a b → LikeAll S a b
  | .nil => .nil
  | .cons h hs => .cons (h.mono m) (hs.mono m)
end

/-- One step of the one, of the other, or of both -/
def Steps (R R' : Nat → Nat → Prop) (p q : Nat) : Prop := R p q ∨ R' p q ∨ ∃ m, R p m ∧ R' m q

mutual
theorem Like.trans {R R' : Nat → Nat → Prop} {a b c : G} : Like R a b → Like R' b c → Like (Steps R R') a c
  | .basic t h, .basic _ h' => .basic t (basic_trans h h')
  | .named t h, .named _ h' => .named t (basic_trans h h')
  | .uintptr n, .uintptr _ => .uintptr n
  | .func t, .func _ => .func t
  | .chan t p, .chan _ _ => .chan t p
  | .nil t, .nil _ => .nil t
  | .same t p, .same _ _ => .same t p
  | .same t p, .ptr _ h => .ptr t (.inr (.inl h))
  | .ptr t h, .same _ _ => .ptr t (.inl h)
  | .ptr t h, .ptr _ h' => .ptr t (.inr (.inr ⟨_, h, h'⟩))
  | .struct t h, .struct _ h' => .struct t (h.trans h')
  | .array t h, .array _ h' => .array t (h.trans h')
  | .nilSlice t, .nilSlice _ => .nilSlice t
  | .slice t h, .slice _ h' => .slice t (h.trans h')
  | .nilIface, .nilIface => .nilIface
  | .iface h, .iface h' => .iface (h.trans h')
theorem LikeFields.trans {R R' : Nat → Nat → Prop} {a b c : List (Bool × G)} : LikeFields R a b → LikeFields R' b c → LikeFields (Steps R R') a c
  | .nil, .nil => .nil
  | .cons e h hs, .cons _ h' hs' => .cons e (h.trans h') (hs.trans hs')
theorem LikeAll.trans {R R' : Nat → Nat → Prop} {a b c : List G} : LikeAll R a b → LikeAll R' b c → LikeAll (Steps R R') a c
  | .nil, .nil => .nil
  | .cons h hs, .cons h' hs' => .cons (h.trans h') (hs.trans hs')
end

theorem DeepEq.symm {H : Heap} {a b : G} (h : DeepEq H a b) : DeepEq H b a := by
  obtain ⟨R, hR, h⟩ := h
  exact ⟨_, fun p q hpq => (hR q p hpq).symm, h.symm⟩

theorem DeepEq.trans {H : Heap} {a b c : G} (h : DeepEq H a b) (h' : DeepEq H b c) : DeepEq H a c := by
  obtain ⟨R, hR, h⟩ := h
  obtain ⟨R', hR', h'⟩ := h'
  refine ⟨Steps R R', ?_, h.trans h'⟩
  rintro p q (hp | hp | ⟨m, hp, hq⟩)
  · exact (hR _ _ hp).mono fun _ _ => .inl
  · exact (hR' _ _ hp).mono fun _ _ h => .inr (.inl h)
  · exact (hR _ _ hp).trans (hR' _ _ hq)

mutual
theorem Comparable.refl (R : Nat → Nat → Prop) {a : G} : Comparable a → Like R a a
  | .basic t h => .basic t h
  | .named t h => .named t h
  | .uintptr n => .uintptr n
  | .func t => .func t
  | .chan t p => .chan t p
  | .ptr t none => .nil t
  | .ptr t (some p) => .same t p
  | .struct t h => .struct t (h.refl R)
  | .array t h => .array t (h.refl R)
  | .nilSlice t => .nilSlice t
  | .slice t h => .slice t (h.refl R)
  | .nilIface => .nilIface
  | .iface h => .iface (h.refl R)
theorem ComparableFields.refl (R : Nat → Nat → Prop) {a : List (Bool × G)} : ComparableFields a → LikeFields R a a
  | .nil => .nil
  | .cons e h hs => .cons e (h.refl R) (hs.refl R)
theorem ComparableAll.refl (R : Nat → Nat → Prop) {a : List G} : ComparableAll a → LikeAll R a a
  | .nil => .nil
  | .cons h hs => .cons (h.refl R) (hs.refl R)
end

mutual
theorem Like.comparable {R : Nat → Nat → Prop} {a b : G} : Like R a b → Comparable a
  | .basic t h => .basic t (basic_refl h)
  | .named t h => .named t (basic_refl h)
  | .uintptr n => .uintptr n
  | .func t => .func t
  | .chan t p => .chan t p
  | .nil t => .ptr t _
  | .same t p => .ptr t _
  | .ptr t h => .ptr t _
  | .struct t h => .struct t h.comparable
  | .array t h => .array t h.comparable
  | .nilSlice t => .nilSlice t
  | .slice t h => .slice t h.comparable
  | .nilIface => .nilIface
  | .iface h => .iface h.comparable
theorem LikeFields.comparable {R : Nat → Nat → Prop} {a b : List (Bool × G)} : LikeFields R a b → ComparableFields a
  | .nil => .nil
  | .cons e h hs => .cons e h.comparable hs.comparable
theorem LikeAll.comparable {R : Nat → Nat → Prop} {a b : List G} : LikeAll R a b → ComparableAll a
  | .nil => .nil
  | .cons h hs => .cons h.comparable hs.comparable
end

/-! ## Deeply equal values have the same hash code -/

/-- Values of dgo that have the same hash code -/
inductive LikeDV (H : Heap) (R : Nat → Nat → Prop) : DV → DV → Prop
  | data {v w : Value.Val} (h : Value.hash v = Value.hash w) : LikeDV H R (.data v) (.data w)
  | same (d : DV) : LikeDV H R d d
  | arr {vs ws : List DV} (h : List.Forall₂ (LikeDV H R) vs ws) : LikeDV H R (.arr vs) (.arr ws)
  | native (hid : Bool) {a b : G} (h : Like R a b) (hs : ∀ t p, a = .ptr t (some p) → ∃ t' fs, H p = .struct t' fs) : LikeDV H R (.native hid a) (.native hid b)

/-- Both return, both panic, or both have not returned yet. -/
inductive LikeRes {α β : Type} (P : α → β → Prop) : Res α → Res β → Prop
  | ok {a : α} {b : β} (h : P a b) : LikeRes P (.ok a) (.ok b)
  | panic : LikeRes P .panic .panic
  | more : LikeRes P .more .more

theorem LikeRes.bind {α β γ δ : Type} {P : α → β → Prop} {Q : γ → δ → Prop} {x : Res α} {y : Res β} {f : α → Res γ} {g : β → Res δ}
    (h : LikeRes P x y) (hf : ∀ a b, P a b → LikeRes Q (f a) (g b)) : LikeRes Q (x.bind f) (y.bind g) := by
  cases h with
  | ok h => exact hf _ _ h
  | panic => exact .panic
  | more => exact .more

theorem LikeRes.eq {α : Type} {x y : Res α} (h : LikeRes Eq x y) : x = y := by
  cases h with
  | ok h => rw [h]
  | panic => rfl
  | more => rfl

theorem LikeRes.rfl {α : Type} {P : α → α → Prop} (hP : ∀ a, P a a) (x : Res α) : LikeRes P x x := by
  cases x with
  | ok a => exact .ok (hP a)
  | panic => exact .panic
  | more => exact .more

theorem LikeDV.isNative {H : Heap} {R : Nat → Nat → Prop} {d e : DV} (h : LikeDV H R d e) : d.isNative = e.isNative := by
  cases h <;> rfl

theorem any_native {H : Heap} {R : Nat → Nat → Prop} {ds es : List DV} (h : List.Forall₂ (LikeDV H R) ds es) : ds.any DV.isNative = es.any DV.isNative := by
  induction h with
  | nil => rfl
  | cons h _ ih => simp [h.isNative, ih]

theorem mapRes_like {H : Heap} {R : Nat → Nat → Prop} {f : G → Res DV} (hf : ∀ a b, Like R a b → LikeRes (LikeDV H R) (f a) (f b)) {vs ws : List G}
    (h : LikeAll R vs ws) : LikeRes (List.Forall₂ (LikeDV H R)) (mapRes f vs) (mapRes f ws) := by
  induction vs generalizing ws with
  | nil => cases h; exact .ok .nil
  | cons v vs ih =>
    cases h with
    | cons h hs => exact (hf _ _ h).bind fun d e hd => (ih hs).bind fun ds es hds => .ok (.cons hd hds)

theorem fromReflected_like {H : Heap} {R : Nat → Nat → Prop} (hR : Respects H R) (n : Nat) : ∀ (hid : Bool) (a b : G), Like R a b →
    LikeRes (LikeDV H R) (fromReflected H n hid a) (fromReflected H n hid b) := by
  induction n with
  | zero => intro hid a b _; exact .more
  | succ n ih =>
    intro hid a b h
    cases h with
    | basic t h =>
      simp only [fromReflected]
      cases hid
      · exact .ok (.data (basic_hash h))
      · exact .ok (.native _ (.basic t h) (by rintro _ _ ⟨⟩))
    | named t h => exact .ok (.native _ (.named t h) (by rintro _ _ ⟨⟩))
    | uintptr => exact .ok (.same _)
    | func => exact .ok (.same _)
    | chan => exact .ok (.same _)
    | nil => exact .ok (.same _)
    | same t p => exact LikeRes.rfl .same _
    | ptr t h =>
      rename_i p q
      have hpq := hR _ _ h
      have hi := ih hid _ _ hpq
      simp only [fromReflected]
      generalize hx : H p = x at hpq hi ⊢
      generalize hy : H q = y at hpq hi ⊢
      cases hpq with
      | struct t h' => exact .ok (.native _ (.ptr _ h) (by rintro _ _ ⟨⟩; exact ⟨_, _, hx⟩))
      | _ => exact hi
    | struct t h => exact .ok (.native _ (.struct t h) (by rintro _ _ ⟨⟩))
    | array t h => exact .ok (.native _ (.array t h) (by rintro _ _ ⟨⟩))
    | nilSlice => exact .ok (.same _)
    | slice t h =>
      simp only [fromReflected]
      refine (mapRes_like (ih hid) h).bind fun ds es hds => ?_
      rw [any_native hds]
      split
      · exact .panic
      · exact .ok (.arr hds)
    | nilIface => exact .ok (.same _)
    | iface h => exact ih hid _ _ h

theorem hashLoop_like {α : Type} {P : α → α → Prop} {f : α → Res (BitVec 64)} (hf : ∀ a b, P a b → f a = f b) {as bs : List α}
    (h : List.Forall₂ P as bs) (i : BitVec 64) : hashLoop f i as = hashLoop f i bs := by
  induction h generalizing i with
  | nil => rfl
  | cons h _ ih => simp only [hashLoop, hf _ _ h, ih]

theorem fields_like {H : Heap} {R : Nat → Nat → Prop} (hR : Respects H R) {n : Nat}
    (ih : ∀ d e, LikeDV H R d e → hashCode H n d = hashCode H n e) (hid : Bool) {fs gs : List (Bool × G)} (h : LikeFields R fs gs) (i : BitVec 64) :
    hashLoop (fun f => (fromReflected H n (hid || !f.1) f.2).bind (hashCode H n)) i fs =
      hashLoop (fun f => (fromReflected H n (hid || !f.1) f.2).bind (hashCode H n)) i gs := by
  induction fs generalizing gs i with
  | nil => cases h; rfl
  | cons f fs ihf =>
    cases h with
    | cons e h hs =>
      have : ((fromReflected H n (hid || !e) _).bind (hashCode H n)) = ((fromReflected H n (hid || !e) _).bind (hashCode H n)) :=
        ((fromReflected_like hR n (hid || !e) _ _ h).bind fun d d' hd => LikeRes.rfl (P := Eq) (fun _ => rfl) _ |> fun x => (ih d d' hd) ▸ x).eq
      simp only [hashLoop, this, ihf hs]

theorem hashCode_like {H : Heap} {R : Nat → Nat → Prop} (hR : Respects H R) (n : Nat) :
    ∀ d e, LikeDV H R d e → hashCode H n d = hashCode H n e := by
  induction n with
  | zero => intro d e _; rfl
  | succ n ih =>
    intro d e h
    cases h with
    | data h => simp only [hashCode, h]
    | same => rfl
    | arr h => simp only [hashCode]; exact hashLoop_like ih h 1
    | native hid h hs =>
      cases h with
      | ptr t h =>
        rename_i p q
        have hpq := hR _ _ h
        simp only [hashCode]
        generalize hx : H p = x at hpq ⊢
        generalize hy : H q = y at hpq ⊢
        cases hpq with
        | struct t h' => exact fields_like hR ih hid h' 1
        | _ => obtain ⟨_, _, hf⟩ := hs _ _ rfl; rw [hx] at hf; cases hf
      | struct t h => simp only [hashCode, fields_like hR ih hid h 1]
      | _ => simp only [hashCode]

/-! ## More calls do not change what is returned -/

/-- The second is the result of going on with the first. -/
def Le {α : Type} (x y : Res α) : Prop := x = .more ∨ x = y

theorem Le.bind {α β : Type} {x y : Res α} {f g : α → Res β} (h : Le x y) (hf : ∀ a, Le (f a) (g a)) : Le (x.bind f) (y.bind g) := by
  rcases h with rfl | rfl
  · exact .inl rfl
  · cases x with
    | ok a => exact hf a
    | panic => exact .inr rfl
    | more => exact .inl rfl

theorem Le.rfl {α : Type} {x : Res α} : Le x x := .inr (Eq.refl x)

theorem mapRes_le {α β : Type} {f g : α → Res β} (h : ∀ a, Le (f a) (g a)) (as : List α) : Le (mapRes f as) (mapRes g as) := by
  induction as with
  | nil => exact .rfl
  | cons a as ih => exact (h a).bind fun b => ih.bind fun bs => .rfl

theorem hashLoop_le {α : Type} {f g : α → Res (BitVec 64)} (h : ∀ a, Le (f a) (g a)) (as : List α) (i : BitVec 64) :
    Le (hashLoop f i as) (hashLoop g i as) := by
  induction as generalizing i with
  | nil => exact .rfl
  | cons a as ih => exact (h a).bind fun b => ih _

theorem fromReflected_succ (H : Heap) (n : Nat) : ∀ (hid : Bool) (g : G), Le (fromReflected H n hid g) (fromReflected H (n + 1) hid g) := by
  induction n with
  | zero => intro hid g; exact .inl rfl
  | succ n ih =>
    intro hid g
    rw [fromReflected.eq_def H (n + 1), fromReflected.eq_def H (n + 1 + 1)]
    cases g with
    | ptr t p =>
      cases p with
      | none => exact .rfl
      | some p =>
        dsimp only
        cases H p with
        | struct t fs => exact .rfl
        | _ => exact ih hid _
    | slice t vs =>
      cases vs with
      | none => exact .rfl
      | some vs => exact (mapRes_le (ih hid) vs).bind fun ds => .rfl
    | iface v =>
      cases v with
      | none => exact .rfl
      | some v => exact ih hid v
    | _ => exact .rfl

theorem hashCode_succ (H : Heap) (n : Nat) : ∀ d : DV, Le (hashCode H n d) (hashCode H (n + 1) d) := by
  induction n with
  | zero => intro d; exact .inl rfl
  | succ n ih =>
    intro d
    have hf : ∀ (hid : Bool) (f : Bool × G), Le ((fromReflected H n (hid || !f.1) f.2).bind (hashCode H n))
        ((fromReflected H (n + 1) (hid || !f.1) f.2).bind (hashCode H (n + 1))) := fun hid f => (fromReflected_succ H n _ _).bind ih
    rw [hashCode.eq_def H (n + 1), hashCode.eq_def H (n + 1 + 1)]
    cases d with
    | arr vs => exact hashLoop_le ih vs 1
    | native hid g =>
      cases g with
      | ptr t p =>
        cases p with
        | none => exact .rfl
        | some p =>
          dsimp only
          cases H p with
          | struct t fs => exact hashLoop_le (hf hid) fs 1
          | _ => exact .rfl
      | struct t fs => exact (hashLoop_le (hf hid) fs 1).bind fun _ => .rfl
      | _ => exact .rfl
    | _ => exact .rfl

theorem le_of_succ {α : Type} {f : Nat → Res α} (h : ∀ n, Le (f n) (f (n + 1))) {n m : Nat} (hnm : n ≤ m) : Le (f n) (f m) := by
  induction hnm with
  | refl => exact .rfl
  | step _ ih =>
    rcases ih with ih | ih
    · exact .inl ih
    · rw [ih]; exact h _

theorem fromReflected_ok {H : Heap} {n m : Nat} {hid : Bool} {g : G} {d : DV} (h : fromReflected H n hid g = .ok d) (hnm : n ≤ m) :
    fromReflected H m hid g = .ok d := by
  rcases le_of_succ (f := fun n => fromReflected H n hid g) (fun n => fromReflected_succ H n hid g) hnm with h' | h'
  · rw [h] at h'; cases h'
  · rw [← h', h]

theorem hashCode_ok {H : Heap} {n m : Nat} {d : DV} {x : BitVec 64} (h : hashCode H n d = .ok x) (hnm : n ≤ m) : hashCode H m d = .ok x := by
  rcases le_of_succ (f := fun n => hashCode H n d) (fun n => hashCode_succ H n d) hnm with h' | h'
  · rw [h] at h'; cases h'
  · rw [← h', h]

theorem valueHash_le {H : Heap} {n m : Nat} (hnm : n ≤ m) (g : G) : Le (valueHash H n g) (valueHash H m g) :=
  le_of_succ (f := fun n => valueHash H n g) (fun n => (fromReflected_succ H n false g).bind (hashCode_succ H n)) hnm

/-! ## When there is a hash code -/

/-- The conversion and the hash code of its result both return. -/
def Good (H : Heap) (hid : Bool) (g : G) : Prop := ∃ n d x, fromReflected H n hid g = .ok d ∧ hashCode H n d = .ok x

/-- So they do for all fields. -/
def GoodFields (H : Heap) (hid : Bool) (fs : List (Bool × G)) : Prop :=
  ∃ n, ∀ i, ∃ x, hashLoop (fun f => (fromReflected H n (hid || !f.1) f.2).bind (hashCode H n)) i fs = .ok x

/-- So they do for all elements of a slice, and there are no natives among them. -/
def GoodAll (H : Heap) (hid : Bool) (vs : List G) : Prop :=
  ∃ n ds, mapRes (fromReflected H n hid) vs = .ok ds ∧ ds.any DV.isNative = false ∧ ∀ i, ∃ x, hashLoop (hashCode H n) i ds = .ok x

theorem Proper.native {H : Heap} {hid : Bool} {g : G} (h : Proper H hid g) {n : Nat} {d : DV} (hd : fromReflected H n hid g = .ok d) :
    d.isNative = false := by
  induction n generalizing g with
  | zero => cases hd
  | succ n ih =>
    rw [fromReflected.eq_def] at hd
    cases h with
    | basic => cases hd; rfl
    | func => cases hd; rfl
    | nil => cases hd; rfl
    | ptr hid t p h =>
      dsimp only at hd
      generalize H p = x at h hd
      cases h with
      | _ => exact ih (by constructor <;> assumption) hd
    | slice hid t vs =>
      cases vs with
      | none => cases hd; rfl
      | some vs =>
        dsimp only at hd
        cases hm : mapRes (fromReflected H n hid) vs with
        | ok ds =>
          rw [hm] at hd
          simp only [Res.bind] at hd
          split at hd
          · cases hd
          · cases hd; rfl
        | panic => rw [hm] at hd; cases hd
        | more => rw [hm] at hd; cases hd
    | nilIface => cases hd; rfl
    | iface hid h => exact ih h hd

theorem mapRes_ok {α β : Type} {f g : α → Res β} (h : ∀ a, Le (f a) (g a)) {as : List α} {bs : List β} (hb : mapRes f as = .ok bs) :
    mapRes g as = .ok bs := by
  rcases mapRes_le h as with h' | h'
  · rw [hb] at h'; cases h'
  · rw [← h', hb]

theorem hashLoop_ok {α : Type} {f g : α → Res (BitVec 64)} (h : ∀ a, Le (f a) (g a)) {as : List α} {i x : BitVec 64} (hb : hashLoop f i as = .ok x) :
    hashLoop g i as = .ok x := by
  rcases hashLoop_le h as i with h' | h'
  · rw [hb] at h'; cases h'
  · rw [← h', hb]

theorem fromReflected_le (H : Heap) {n m : Nat} (hnm : n ≤ m) (hid : Bool) (g : G) : Le (fromReflected H n hid g) (fromReflected H m hid g) :=
  le_of_succ (f := fun n => fromReflected H n hid g) (fun n => fromReflected_succ H n hid g) hnm

theorem hashCode_le (H : Heap) {n m : Nat} (hnm : n ≤ m) (d : DV) : Le (hashCode H n d) (hashCode H m d) :=
  le_of_succ (f := fun n => hashCode H n d) (fun n => hashCode_succ H n d) hnm

/-- What a native of a struct, or a pointer to one, does -/
theorem good_struct {H : Heap} {hid : Bool} {t : Nat} {fs : List (Bool × G)} (h : GoodFields H hid fs) : Good H hid (.struct t fs) := by
  obtain ⟨n, hn⟩ := h
  obtain ⟨x, hx⟩ := hn 1
  refine ⟨n + 1, _, x * 3, rfl, ?_⟩
  simp only [hashCode, hx]
  rfl

theorem good_ptr_struct {H : Heap} {hid : Bool} {t p t' : Nat} {fs : List (Bool × G)} (hp : H p = .struct t' fs) (h : GoodFields H hid fs) :
    Good H hid (.ptr t (some p)) := by
  obtain ⟨n, hn⟩ := h
  obtain ⟨x, hx⟩ := hn 1
  refine ⟨n + 1, .native hid (.ptr t (some p)), x, ?_, ?_⟩
  · simp only [fromReflected, hp]
  · simp only [hashCode, hp, hx]

/-- The fields of a struct that has a hash code -/
theorem fields_of_struct {H : Heap} {hid : Bool} {t : Nat} {fs : List (Bool × G)} (h : Good H hid (.struct t fs)) :
    ∃ n x, hashLoop (fun f => (fromReflected H n (hid || !f.1) f.2).bind (hashCode H n)) 1 fs = .ok x := by
  obtain ⟨n, d, x, hd, hx⟩ := h
  cases n with
  | zero => cases hd
  | succ n =>
    cases hd
    refine ⟨n, ?_⟩
    simp only [hashCode] at hx
    cases hl : hashLoop (fun f => (fromReflected H n (hid || !f.1) f.2).bind (hashCode H n)) 1 fs with
    | ok y => exact ⟨y, rfl⟩
    | panic => rw [hl] at hx; cases hx
    | more => rw [hl] at hx; cases hx

theorem good_ptr {H : Heap} {hid : Bool} {t p : Nat} (h : Good H hid (H p)) : Good H hid (.ptr t (some p)) := by
  by_cases hs : ∃ t' fs, H p = .struct t' fs
  · obtain ⟨t', fs, hp⟩ := hs
    rw [hp] at h
    obtain ⟨n, x, hx⟩ := fields_of_struct h
    refine ⟨n + 1, .native hid (.ptr t (some p)), x, ?_, ?_⟩
    · simp only [fromReflected, hp]
    · simp only [hashCode, hp, hx]
  · obtain ⟨n, d, x, hd, hx⟩ := h
    refine ⟨n + 1, d, x, ?_, hashCode_ok hx (Nat.le_succ n)⟩
    rw [← hd]
    simp only [fromReflected]
    split
    · rename_i h'; exact absurd ⟨_, _, h'⟩ hs
    · rfl

mutual
theorem Hashable.good {H : Heap} {hid : Bool} {g : G} : Hashable H hid g → Good H hid g
  | .basic true t v => ⟨1, _, _, rfl, rfl⟩
  | .basic false t v => ⟨1, _, _, rfl, rfl⟩
  | .named hid t v => ⟨1, _, _, rfl, rfl⟩
  | .func hid t c => ⟨1, _, _, rfl, rfl⟩
  | .chan hid t c => ⟨1, _, _, rfl, rfl⟩
  | .nil hid t => ⟨1, _, _, rfl, rfl⟩
  | .ptr hid t p h => good_ptr h.good
  | .struct hid t h => good_struct h.good
  | .array hid t vs => ⟨1, _, _, rfl, rfl⟩
  | .nilSlice hid t => ⟨1, _, _, rfl, rfl⟩
  | .slice hid t h => by
    obtain ⟨n, ds, hd, hn, hx⟩ := h.good
    obtain ⟨x, hx⟩ := hx 1
    refine ⟨n + 1, .arr ds, x, ?_, ?_⟩
    · simp only [fromReflected, hd, Res.bind, hn]; rfl
    · simp only [hashCode, hx]
  | .nilIface hid => ⟨1, _, _, rfl, rfl⟩
  | .iface hid h => by
    obtain ⟨n, d, x, hd, hx⟩ := h.good
    exact ⟨n + 1, d, x, hd, hashCode_ok hx (Nat.le_succ n)⟩
theorem HashableFields.good {H : Heap} {hid : Bool} {fs : List (Bool × G)} : HashableFields H hid fs → GoodFields H hid fs
  | .nil hid => ⟨0, fun i => ⟨i, rfl⟩⟩
  | .cons hid e h hs => by
    obtain ⟨n, d, x, hd, hx⟩ := h.good
    obtain ⟨m, hm⟩ := hs.good
    refine ⟨n + m, fun i => ?_⟩
    obtain ⟨y, hy⟩ := hm (i * 31 + x)
    refine ⟨y, ?_⟩
    simp only [hashLoop, fromReflected_ok hd (Nat.le_add_right n m), Res.bind, hashCode_ok hx (Nat.le_add_right n m)]
    exact hashLoop_ok (fun f => (fromReflected_le H (Nat.le_add_left m n) _ _).bind (hashCode_le H (Nat.le_add_left m n))) hy
theorem HashableAll.good {H : Heap} {hid : Bool} {vs : List G} : HashableAll H hid vs → GoodAll H hid vs
  | .nil hid => ⟨0, [], rfl, rfl, fun i => ⟨i, rfl⟩⟩
  | .cons hid h hp hs => by
    obtain ⟨n, d, x, hd, hx⟩ := h.good
    obtain ⟨m, ds, hds, hn, hm⟩ := hs.good
    refine ⟨n + m, d :: ds, ?_, ?_, fun i => ?_⟩
    · simp only [mapRes, fromReflected_ok hd (Nat.le_add_right n m), Res.bind,
        mapRes_ok (fun v => fromReflected_le H (Nat.le_add_left m n) hid v) hds]
    · simp [hp.native hd, hn]
    · obtain ⟨y, hy⟩ := hm (i * 31 + x)
      refine ⟨y, ?_⟩
      simp only [hashLoop, hashCode_ok hx (Nat.le_add_right n m), Res.bind]
      exact hashLoop_ok (fun f => hashCode_le H (Nat.le_add_left m n) _) hy
end

end Verif.Native
