import Verif.Reflect.CallSpec
import Verif.Reflect.FromTypeLemmas
/-!
# Lemmas about calls of Go functions
-/
set_option autoImplicit false
set_option linter.unusedVariables false
set_option linter.unusedSimpArgs false
set_option linter.unusedSectionVars false
namespace Verif.Reflect
open Verif.Value Verif.Types
variable {E : Types.Env} {R : Env}

theorem Params.length {ts : List GT} {vs : List Val} {gs : List GV} (h : Params R ts vs gs) : vs.length = ts.length := by
  induction h with
  | nil => rfl
  | cons _ _ ih => simp [ih]

theorem pass_iff : ∀ {ts : List GT} {vs : List Val} {gs : List GV}, vs.length = ts.length → (pass R vs ts = some gs ↔ Params R ts vs gs)
  | [], [], gs, _ => by
    rw [pass]
    constructor
    · intro h; cases h; exact .nil
    · intro h; cases h; rfl
    · simp
  | t :: ts, v :: vs, gs, hl => by
    rw [pass]
    constructor
    · intro h
      obtain ⟨g, h1, h⟩ := Option.bind_eq_some_iff.1 h
      obtain ⟨gs, h2, rfl⟩ := Option.map_eq_some_iff.1 h
      exact .cons h1 ((pass_iff (by simpa using hl)).1 h2)
    · intro h
      cases h with
      | cons h1 h2 => rw [h1, Option.bind_some, (pass_iff (by simpa using hl)).2 h2, Option.map_some]

theorem reflectAll_iff {e : GT} : ∀ {vs : List Val} {gs : List GV}, reflectAll R vs e = some gs ↔ List.Forall₂ (fun v g => reflectTo R v e = some g) vs gs
  | [], gs => by rw [reflectAll]; simp [eq_comm]
  | v :: vs, gs => by
    rw [reflectAll]
    constructor
    · intro h
      obtain ⟨g, h1, h⟩ := Option.bind_eq_some_iff.1 h
      obtain ⟨gs, h2, rfl⟩ := Option.map_eq_some_iff.1 h
      exact .cons h1 (reflectAll_iff.1 h2)
    · intro h
      cases h with
      | cons h1 h2 => rw [h1, Option.bind_some, reflectAll_iff.2 h2, Option.map_some]

theorem arguments_iff {f : Fn} {args : List Val} {gs : List GV} : f.arguments R args = some gs ↔ Receives R f args gs := by
  unfold Fn.arguments Receives
  cases f.rest with
  | none =>
    simp only
    split
    · rename_i hl
      simp only [reduceCtorEq, false_iff]
      exact fun h => hl h.length
    · rename_i hl
      exact pass_iff (by simpa using hl)
  | some e =>
    simp only
    split
    · rename_i hl
      simp only [reduceCtorEq, false_iff]
      rintro ⟨vs, more, fixed, rs, rfl, h, -, -⟩
      have := h.length
      simp at hl
      omega
    · rename_i hl
      constructor
      · intro h
        obtain ⟨fixed, h1, h⟩ := Option.bind_eq_some_iff.1 h
        obtain ⟨rs, h2, rfl⟩ := Option.map_eq_some_iff.1 h
        exact ⟨_, _, fixed, rs, (List.take_append_drop _ _).symm, (pass_iff (by simp; omega)).1 h1, reflectAll_iff.1 h2, rfl⟩
      · rintro ⟨vs, more, fixed, rs, rfl, h1, h2, rfl⟩
        have hn := h1.length
        rw [← hn, List.take_left, List.drop_left, (pass_iff hn).2 h1, Option.bind_some, reflectAll_iff.2 h2, Option.map_some]

theorem params_typed {ts : List GT} {vs : List Val} {gs : List GV} (h : Params R ts vs gs) : gs.map GV.type = ts ∧ ∀ g ∈ gs, Typed g := by
  induction h with
  | nil => simp
  | cons h1 _ ih =>
    have := typed _ _ _ h1
    simp only [List.map_cons, this.1, ih.1, List.forall_mem_cons]
    exact ⟨trivial, this.2, ih.2⟩

theorem rest_typed {e : GT} {vs : List Val} {gs : List GV} (h : List.Forall₂ (fun v g => reflectTo R v e = some g) vs gs) : TypedAll e gs := by
  induction h with
  | nil => rw [TypedAll]; trivial
  | cons h1 _ ih =>
    have := typed _ _ _ h1
    rw [TypedAll]
    exact ⟨this.1, this.2, ih⟩

theorem receives_typed {f : Fn} {args : List Val} {gs : List GV} (h : Receives R f args gs) : gs.map GV.type = f.params ∧ ∀ g ∈ gs, Typed g := by
  unfold Receives at h
  unfold Fn.params
  split at h
  · rename_i hr
    have := params_typed h
    simp only [hr, Option.toList_none, List.map_nil, List.append_nil]
    exact this
  · rename_i e hr
    obtain ⟨vs, more, fixed, rs, rfl, h1, h2, rfl⟩ := h
    have := params_typed h1
    refine ⟨by simp [hr, this.1, GV.type], fun g hg => ?_⟩
    rcases List.mem_append.1 hg with hg | hg
    · exact this.2 g hg
    · rw [List.mem_singleton] at hg
      subst hg
      rw [Typed]
      exact rest_typed h2

/-! ## The types -/

theorem typesFrom_spec : ∀ (ts : List GT) (o : Oid) (k : Nat), ∃ Ts, typesFrom o k ts = some Ts ∧ Acycs Ts ∧ ¬ occs o Ts ∧
    List.Forall₂ (fun T t => ∀ v, Fits v → (has E T v = true ↔ Accepts t v)) Ts ts
  | [], o, k => ⟨[], rfl, trivial, fun h => h, .nil⟩
  | t :: ts, o, k => by
    obtain ⟨T, h1, h2, h3, -, h5⟩ := from_spec (E := E) t (.part o k)
    obtain ⟨Ts, i1, i2, i3, i4⟩ := typesFrom_spec ts o (k + 1)
    refine ⟨T :: Ts, by rw [typesFrom, h1, Option.bind_some, i1, Option.map_some], ⟨h2, i2⟩, ?_, .cons h5 i4⟩
    rintro (h | h)
    · have := h3 _ h; simp only [osize] at this; omega
    · exact i3 h

theorem forall2_accepts : ∀ {Ts : List Ty} {ts : List GT} {vs : List Val}, List.Forall₂ (fun T t => ∀ v, Fits v → (has E T v = true ↔ Accepts t v)) Ts ts →
    (∀ v ∈ vs, Fits v) → (List.Forall₂ (fun T v => has E T v = true) Ts vs ↔ List.Forall₂ (fun t v => Accepts t v) ts vs)
  | [], [], vs, .nil, _ => by cases vs <;> simp
  | T :: Ts, t :: ts, vs, .cons h1 h2, hf => by
    cases vs with
    | nil => simp
    | cons v vs =>
      rw [List.forall₂_cons, List.forall₂_cons, h1 v (hf v (by simp)), forall2_accepts h2 fun x hx => hf x (by simp [hx])]

theorem forall2_snoc {α β : Type} {P : α → β → Prop} {b : β} : ∀ {bs : List β} {l : List α}, List.Forall₂ P l (bs ++ [b]) →
    ∃ as a, List.Forall₂ P as bs ∧ P a b ∧ l = as ++ [a]
  | [], _, .cons h .nil => ⟨[], _, .nil, h, rfl⟩
  | _ :: _, _, .cons h h' => by
    obtain ⟨as, a, h1, h2, rfl⟩ := forall2_snoc h'
    exact ⟨_ :: as, a, .cons h h1, h2, rfl⟩

/-- What the type of the arguments has as instances -/
theorem inType_iff {o : Oid} {f : Fn} {T : Ty} {args : List Val} (hT : f.inType o = some T) (hf : Fits (.arr args)) :
    instanceOf E T (.arr args) = true ↔ match f.rest with
      | none => List.Forall₂ (fun t v => Accepts t v) f.ins args
      | some e => ∃ vs more, args = vs ++ more ∧ List.Forall₂ (fun t v => Accepts t v) f.ins vs ∧ ∀ v ∈ more, Accepts e v := by
  obtain ⟨Ts, h1, h2, h3, h4⟩ := typesFrom_spec (E := E) (f.ins ++ f.rest.toList) o 0
  rw [Fits, FitsAll_iff] at hf
  rw [Fn.inType, h1] at hT
  cases hT
  rw [instanceOf_has (show (Ty.tuple o Ts _).Acyc from ⟨h3, h2⟩)]
  cases hr : f.rest with
  | none =>
    rw [hr] at h4
    simp only [Option.isSome_none, Option.toList_none, List.append_nil] at h4 ⊢
    rw [has_tuple]
    constructor
    · rintro ⟨vs, ⟨⟩, h⟩; exact (forall2_accepts h4 hf.2).1 h
    · intro h; exact ⟨_, rfl, (forall2_accepts h4 hf.2).2 h⟩
  | some e =>
    rw [hr] at h4
    simp only [Option.isSome_some, Option.toList_some] at h4 ⊢
    obtain ⟨A, B, hA, hB, rfl⟩ : ∃ A B, List.Forall₂ (fun T t => ∀ v, Fits v → (has E T v = true ↔ Accepts t v)) A f.ins ∧
        (∀ v, Fits v → (has E B v = true ↔ Accepts e v)) ∧ Ts = A ++ [B] := by
      exact forall2_snoc h4
    rw [has_variadic]
    constructor
    · rintro ⟨vs, ws, h, h', h''⟩
      cases h
      exact ⟨vs, ws, rfl, (forall2_accepts hA fun v hv => hf.2 v (by simp [hv])).1 h', fun v hv => (hB v (hf.2 v (by simp [hv]))).1 (h'' v hv)⟩
    · rintro ⟨vs, ws, rfl, h', h''⟩
      exact ⟨vs, ws, rfl, (forall2_accepts hA fun v hv => hf.2 v (by simp [hv])).2 h', fun v hv => (hB v (hf.2 v (by simp [hv]))).2 (h'' v hv)⟩

theorem accepts_params : ∀ {ts : List GT} {vs : List Val}, List.Forall₂ (fun t v => Accepts t v) ts vs → (∀ t ∈ ts, Direct t) → (∀ v ∈ vs, SimpleKeys v) →
    ∃ gs, Params R ts vs gs
  | [], [], .nil, _, _ => ⟨[], .nil⟩
  | t :: ts, v :: vs, .cons h1 h2, hd, hs => by
    obtain ⟨g, hg⟩ := accepts_goes (R := R) t v h1 (hd t (by simp)) (hs v (by simp))
    obtain ⟨gs, hgs⟩ := accepts_params h2 (fun t ht => hd t (by simp [ht])) fun v hv => hs v (by simp [hv])
    exact ⟨g :: gs, .cons hg hgs⟩

theorem accepts_receives {o : Oid} {f : Fn} {T : Ty} {args : List Val} (hT : f.inType o = some T) (hf : Fits (.arr args)) (hd : ∀ t ∈ f.params, Direct t)
    (hs : ∀ v ∈ args, SimpleKeys v) (h : instanceOf E T (.arr args) = true) : ∃ gs, Receives R f args gs := by
  rw [inType_iff hT hf] at h
  unfold Receives
  unfold Fn.params at hd
  cases hr : f.rest with
  | none =>
    rw [hr] at h
    exact accepts_params h (fun t ht => hd t (by simp [ht])) hs
  | some e =>
    rw [hr] at h
    obtain ⟨vs, more, rfl, h1, h2⟩ := h
    obtain ⟨gs, hg⟩ := accepts_params h1 (fun t ht => hd t (by simp [ht])) fun v hv => hs v (by simp [hv])
    have he : Direct e := hd (.slice e) (by simp [hr])
    obtain ⟨rs, hrs⟩ := all_go (E := R) (e := e) fun v hv => accepts_goes (R := R) e v (h2 v hv) he (hs v (by simp [hv]))
    exact ⟨_, vs, more, gs, rs, rfl, hg, reflectAll_iff.1 hrs, rfl⟩

theorem params_back : ∀ {ts : List GT} {vs : List Val} {gs : List GV}, Params R ts vs gs → List.Forall₂ (fun t v => Accepts t v) ts vs →
    (∀ t ∈ ts, Exact t) → (∀ t ∈ ts, NoIface t) ∨ (∀ v ∈ vs, NoTime v) → (∀ v ∈ vs, WF v) → List.Forall₂ (fun g v => fromReflected R g = .ok v) gs vs
  | [], [], [], .nil, .nil, _, _, _ => .nil
  | t :: ts, v :: vs, g :: gs, .cons h h', .cons a a', he, hi, hw => by
    refine .cons (round v t g h (accepts_survives t v a (he t (by simp)) ?_) (hw v (by simp))) (params_back h' a' (fun t ht => he t (by simp [ht])) ?_
      fun v hv => hw v (by simp [hv]))
    · exact hi.imp (fun h => h t (by simp)) fun h => h v (by simp)
    · exact hi.imp (fun h t ht => h t (by simp [ht])) fun h v hv => h v (by simp [hv])

theorem rest_back {e : GT} : ∀ {vs : List Val} {gs : List GV}, List.Forall₂ (fun v g => reflectTo R v e = some g) vs gs → (∀ v ∈ vs, Accepts e v) →
    Exact e → NoIface e ∨ (∀ v ∈ vs, NoTime v) → (∀ v ∈ vs, WF v) → List.Forall₂ (fun g v => fromReflected R g = .ok v) gs vs
  | [], [], .nil, _, _, _, _ => .nil
  | v :: vs, g :: gs, .cons h h', a, he, hi, hw => by
    refine .cons (round v e g h (accepts_survives e v (a v (by simp)) he ?_) (hw v (by simp))) (rest_back h' (fun v hv => a v (by simp [hv])) he ?_
      fun v hv => hw v (by simp [hv]))
    · exact hi.imp id fun h => h v (by simp)
    · exact hi.imp id fun h v hv => h v (by simp [hv])

theorem params_unique {ts : List GT} {vs vs' : List Val} {us us' : List Val} (h : vs ++ us = vs' ++ us') (h1 : vs.length = ts.length)
    (h2 : vs'.length = ts.length) : vs = vs' ∧ us = us' := List.append_inj h (by omega)

theorem receives_back {o : Oid} {f : Fn} {T : Ty} {args : List Val} {gs : List GV} (hT : f.inType o = some T) (hf : Fits (.arr args))
    (he : ∀ t ∈ f.ins ++ f.rest.toList, Exact t) (hi : (∀ t ∈ f.ins ++ f.rest.toList, NoIface t) ∨ ∀ v ∈ args, NoTime v) (hw : ∀ v ∈ args, WF v)
    (h : instanceOf E T (.arr args) = true) (hr : Receives R f args gs) : ReadsBack R f gs args := by
  rw [inType_iff hT hf] at h
  unfold Receives at hr
  unfold ReadsBack
  cases hr' : f.rest with
  | none =>
    rw [hr'] at h hr
    exact params_back hr h (fun t ht => he t (by simp [ht])) (hi.imp (fun h t ht => h t (by simp [ht])) id) hw
  | some e =>
    rw [hr'] at h hr
    obtain ⟨vs, more, hargs, h1, h2⟩ := h
    obtain ⟨vs', more', fixed, rs, rfl, h3, h4, rfl⟩ := hr
    obtain ⟨rfl, rfl⟩ := params_unique hargs h3.length h1.length_eq.symm
    refine ⟨fixed, rs, _, _, rfl, rfl, params_back h3 h1 (fun t ht => he t (by simp [ht])) (hi.imp (fun h t ht => h t (by simp [ht])) fun h v hv => h v (by simp [hv]))
      fun v hv => hw v (by simp [hv]), rest_back h4 h2 (he e (by simp [hr'])) (hi.imp (fun h => h e (by simp [hr'])) fun h v hv => h v (by simp [hv]))
      fun v hv => hw v (by simp [hv])⟩

/-! ## The results -/

theorem results_accepted : ∀ {gs : List GV} {rs : List (Option Val)}, List.Forall₂ (Result R) gs rs → (∀ g ∈ gs, Typed g ∧ Described R g ∧ IsNil g = false) →
    ∃ vs, rs = vs.map some ∧ List.Forall₂ (fun t v => Accepts t v) (gs.map GV.type) vs ∧ List.Forall₂ (fun g v => fromReflected R g = .ok v) gs vs
  | [], [], .nil, _ => ⟨[], rfl, .nil, .nil⟩
  | g :: gs, r :: rs, .cons h h', hg => by
    obtain ⟨vs, rfl, h1, h2⟩ := results_accepted h' fun g hg' => hg g (by simp [hg'])
    obtain ⟨ht, hd, hn⟩ := hg g (by simp)
    rcases h with ⟨-, h, -⟩ | ⟨v, rfl, h, -⟩
    · rw [hn] at h; cases h
    · exact ⟨v :: vs, rfl, .cons ((read_described g v h ht).2 hd) h1, .cons h h2⟩


theorem isValue_iff {g : GV} : isValue? g = true ↔ IsValue g := by
  unfold IsValue
  constructor
  · intro h
    unfold isValue? at h
    split at h
    · exact ⟨_, _, .inl rfl⟩
    · exact ⟨_, _, .inr rfl⟩
    · cases h
  · rintro ⟨k, v, rfl | rfl⟩ <;> rfl

theorem convertReturn_ok : ∀ {gs : List GV} {rs : List (Option Val)}, convertReturn R gs = .ok rs ↔ List.Forall₂ (Result R) gs rs
  | [], rs => by
    rw [convertReturn]
    constructor
    · intro h; cases h; exact .nil
    · intro h; cases h; rfl
  | g :: gs, rs => by
    rw [convertReturn]
    constructor
    · intro h
      obtain ⟨v, hv, h⟩ := bind_ok h
      obtain ⟨ss, h', rfl⟩ := map_ok h
      refine .cons ?_ (convertReturn_ok.1 h')
      have hn := read_nil hv
      cases v with
      | nil =>
        by_cases hi : isValue? g = true
        · right; exact ⟨.nil, by simp [hi], hv, fun _ => isValue_iff.1 hi⟩
        · left; exact ⟨by simp [hi], hn.2 rfl, fun h => hi (isValue_iff.2 h), hv⟩
      | _ => right; exact ⟨_, rfl, hv, fun h => by simp [hn] at h⟩
    · intro h
      cases h with
      | cons h1 h2 =>
        rw [convertReturn_ok.2 h2]
        rcases h1 with ⟨rfl, h1, h3, h4⟩ | ⟨v, rfl, h3, h4⟩
        · rw [h4]; simp [Except.bind, Except.map, isValue_iff, h3]
        · rw [h3]
          have hn := read_nil h3
          cases v with
          | nil => simp [Except.bind, Except.map, isValue_iff, h4 (hn.2 rfl)]
          | _ => simp [Except.bind, Except.map]

end Verif.Reflect
