import Verif.Types.FromMap
import Verif.Types.Props
/-!
# C88: the types that `StructMapTypeFromMap` makes
-/
set_option autoImplicit false
set_option linter.unusedVariables false
set_option linter.unusedSimpArgs false
namespace Verif.Types
open Verif.Value

variable {E : Env}

/-- The value stands for the type: it is the type, or a text that is read as the type, or as a value whose type it is. -/
inductive Means (P : Parse) : SArg → Ty → Prop
  | type (t : Ty) : Means P (.type t) t
  | text (s : Str) (t : Ty) : s ≠ [] → P s = some (.inr t) → Means P (.data (.str s)) t
  | value (s : Str) (v : Val) (o : Oid) : s ≠ [] → P s = some (.inl v) → Means P (.data (.str s)) (typeOf o v)

/-- The value declares an entry of the type, and whether it is required: it stands for the type, or it is a map that says so. -/
inductive Declares (P : Parse) : SArg → Bool → Ty → Prop
  | plain (a : SArg) (t : Ty) : Means P a t → Declares P a true t
  | required (es : List (Val × SArg)) (a : SArg) (t : Ty) (b : Bool) : argGet es typeKey = some a → Means P a t →
      argGet es requiredKey = some (.data (.bool b)) → Declares P (.map es) b t
  | default (es : List (Val × SArg)) (a : SArg) (t : Ty) : argGet es typeKey = some a → Means P a t → argGet es requiredKey = none →
      Declares P (.map es) true t

theorem asType_means {P : Parse} {o : Oid} {a : SArg} (h : a.isType P = true) : ∃ t, asType P o (some a) = some t ∧ Means P a t := by
  cases a with
  | type t => exact ⟨t, rfl, .type t⟩
  | map es => simp [SArg.isType] at h
  | data v =>
    cases v <;> simp [SArg.isType] at h
    rename_i s
    obtain ⟨hs, h⟩ := h
    obtain ⟨r, hr⟩ := Option.isSome_iff_exists.1 h
    have hs : s ≠ [] := by rintro rfl; simp at hs
    cases r with
    | inl v => exact ⟨typeOf o v, by simp [asType, hr], .value s v o hs hr⟩
    | inr t => exact ⟨t, by simp [asType, hr], .text s t hs hr⟩

theorem means_isType {P : Parse} {a : SArg} {t : Ty} (h : Means P a t) : a.isType P = true := by
  cases h with
  | type => rfl
  | text s t hs hp => simp [SArg.isType, hp, List.length_pos_iff, hs]
  | value s t o hs hp => simp [SArg.isType, hp, List.length_pos_iff, hs]

theorem fieldOf_declares {P : Parse} {o : Oid} {k : Val} {a : SArg} (h : a.isDecl P = true) :
    ∃ b t, fieldOf P o (k, a) = some (k, b, t) ∧ Declares P a b t := by
  cases a with
  | type t => exact ⟨true, t, rfl, .plain _ _ (.type t)⟩
  | data v =>
    obtain ⟨t, ht, hm⟩ := asType_means (o := o) (show (SArg.data v).isType P = true from h)
    exact ⟨true, t, by simp [fieldOf, ht], .plain _ _ hm⟩
  | map es =>
    rw [SArg.isDecl, Bool.and_eq_true] at h
    cases hg : argGet es typeKey with
    | none => simp [hg] at h
    | some a =>
      simp only [hg] at h
      obtain ⟨t, ht, hm⟩ := asType_means (o := o) h.1
      cases hr : argGet es requiredKey with
      | none => exact ⟨true, t, by simp [fieldOf, hg, ht, hr], .default es a t hg hm hr⟩
      | some r =>
        simp only [hr] at h
        cases r with
        | data v =>
          cases v <;> simp [SArg.isBool] at h
          rename_i b
          exact ⟨b, t, by simp [fieldOf, hg, ht, hr], .required es a t b hg hm hr⟩
        | _ => simp [SArg.isBool] at h

theorem declares_isDecl {P : Parse} {a : SArg} {b : Bool} {t : Ty} (h : Declares P a b t) : a.isDecl P = true := by
  cases h with
  | plain a t h =>
    have := means_isType h
    cases h <;> exact this
  | required es a t b h1 h2 h3 => simp [SArg.isDecl, h1, h3, means_isType h2, SArg.isBool]
  | default es a t h1 h2 h3 => simp [SArg.isDecl, h1, h3, means_isType h2]

/-- The fields are what the entries of the map declare. -/
def Fields (P : Parse) (m : List (Val × SArg)) (fs : List (Val × Bool × Ty)) : Prop :=
  List.Forall₂ (fun e f => (∃ s, e.1 = .str s) ∧ f.1 = e.1 ∧ Declares P e.2 f.2.1 f.2.2) m fs

theorem fieldsOf_fields {P : Parse} {o : Oid} : ∀ {m : List (Val × SArg)}, isStructMap P m = true → ∃ fs, fieldsOf P o m = some fs ∧ Fields P m fs
  | [], _ => ⟨[], rfl, .nil⟩
  | (k, a) :: m, h => by
    rw [isStructMap, List.all_cons, Bool.and_eq_true, Bool.and_eq_true] at h
    obtain ⟨b, t, h1, h2⟩ := fieldOf_declares (o := .part o m.length) (k := k) h.1.2
    obtain ⟨fs, h3, h4⟩ := fieldsOf_fields (o := o) (m := m) h.2
    refine ⟨(k, b, t) :: fs, by simp [fieldsOf, h1, h3], .cons ⟨?_, rfl, h2⟩ h4⟩
    have := h.1.1
    cases k <;> simp at this
    exact ⟨_, rfl⟩

theorem fields_isStructMap {P : Parse} {m : List (Val × SArg)} {fs : List (Val × Bool × Ty)} (h : Fields P m fs) : isStructMap P m = true := by
  induction h with
  | nil => rfl
  | @cons e f m fs h1 h2 ih =>
    obtain ⟨⟨s, hs⟩, -, h3⟩ := h1
    rw [isStructMap, List.all_cons, Bool.and_eq_true]
    refine ⟨?_, ih⟩
    rw [hs, declares_isDecl h3]
    rfl

/-- **C88.**  The type that `StructMapTypeFromMap` returns accepts exactly the maps that the argument describes: a type, a text for a type, or
a map with the type and whether the entry is required. -/
theorem C88_accepts {P : Parse} {o : Oid} {additional : Bool} {m : List (Val × SArg)} {t : Ty} (h : structMapTypeFromMap P o additional m = some t)
    (hd : DistinctKeys m) : ∃ fs, Fields P m fs ∧ (AcycFields fs → ¬ occFields o fs → ∀ v, WF v →
      (instanceOf E t v = true ↔ ∃ es, v = .map es ∧ Matches E additional fs es)) := by
  unfold structMapTypeFromMap at h
  split at h
  · cases h
  rename_i hs
  obtain ⟨fs, h1, h2⟩ := fieldsOf_fields (o := o) (m := m) (by simpa using hs)
  rw [h1, Option.bind_some] at h
  refine ⟨fs, h2, fun ha ho v hv => C32_instance_partial h ?_ ?_ ha ho hv⟩
  · clear h h1 hs hd ha ho
    induction h2 with
    | nil => simp
    | @cons e f m fs h1 _ ih =>
      intro g hg
      rcases List.mem_cons.1 hg with rfl | hg
      · obtain ⟨⟨s, hs⟩, h1, _⟩ := h1
        rw [h1, hs]; trivial
      · exact ih g hg
  · clear h h1 hs ha ho
    have key : ∀ {m : List (Val × SArg)} {fs : List (Val × Bool × Ty)}, Fields P m fs → ∀ f ∈ fs, ∃ e ∈ m, f.1 = e.1 := by
      intro m fs h
      induction h with
      | nil => simp
      | @cons e f m fs h1 _ ih =>
        intro g hg
        rcases List.mem_cons.1 hg with rfl | hg
        · exact ⟨e, by simp, h1.2.1⟩
        · obtain ⟨e', he, h'⟩ := ih g hg
          exact ⟨e', by simp [he], h'⟩
    induction h2 with
    | nil => exact .nil
    | @cons e f m fs h1 h2 ih =>
      have hd := List.pairwise_cons.1 hd
      refine List.pairwise_cons.2 ⟨?_, ih hd.2⟩
      intro g hg
      obtain ⟨e', he, h'⟩ := key h2 g hg
      rw [h', h1.2.1]
      exact hd.1 e' he

theorem means_same {P : Parse} {a : SArg} {t u : Ty} (h : Means P a t) (h' : Means P a u) : t = u ∨ ∃ v o o', t = typeOf o v ∧ u = typeOf o' v := by
  cases h with
  | type => cases h'; exact .inl rfl
  | text s t hs hp =>
    cases h' with
    | text s t hs hp' => cases hp.symm.trans hp'; exact .inl rfl
    | value s v o hs hp' => cases hp.symm.trans hp'
  | value s v o hs hp =>
    cases h' with
    | text s t hs hp' => cases hp.symm.trans hp'
    | value s v o hs hp' => cases hp.symm.trans hp'; exact .inr ⟨_, _, _, rfl, rfl⟩

theorem declares_same {P : Parse} {a : SArg} {b c : Bool} {t u : Ty} (h : Declares P a b t) (h' : Declares P a c u) :
    b = c ∧ t.isExact = u.isExact ∧ (t = .nilT ↔ u = .nilT) := by
  have key : ∀ {a : SArg} {t u : Ty}, Means P a t → Means P a u → t.isExact = u.isExact ∧ (t = .nilT ↔ u = .nilT) := by
    intro a t u h1 h2
    rcases means_same h1 h2 with rfl | ⟨v, o, o', rfl, rfl⟩
    · exact ⟨rfl, .rfl⟩
    · cases v <;> simp [typeOf, Ty.isExact]
  cases h with
  | plain a t h =>
    cases h' with
    | plain a u h' => exact ⟨rfl, key h h'⟩
    | required es a' u b h1 h2 h3 => cases h
    | default es a' u h1 h2 h3 => cases h
  | required es a t b h1 h2 h3 =>
    cases h' with
    | plain a u h' => cases h'
    | required es a' u b h1' h2' h3' => cases h1.symm.trans h1'; cases h3.symm.trans h3'; exact ⟨rfl, key h2 h2'⟩
    | default es a' u h1' h2' h3' => cases h3.symm.trans h3'
  | default es a t h1 h2 h3 =>
    cases h' with
    | plain a u h' => cases h'
    | required es a' u b h1' h2' h3' => cases h3.symm.trans h3'
    | default es a' u h1' h2' h3' => cases h1.symm.trans h1'; exact ⟨rfl, key h2 h2'⟩

theorem fields_same {P : Parse} {m : List (Val × SArg)} {fs gs : List (Val × Bool × Ty)} (h : Fields P m fs) (h' : Fields P m gs) :
    ((∀ f ∈ fs, f.2.1 = true ∧ f.2.2.isExact = true) → ∀ f ∈ gs, f.2.1 = true ∧ f.2.2.isExact = true) ∧
    ((∃ f ∈ fs, f.2.2 = .nilT) → ∃ f ∈ gs, f.2.2 = .nilT) := by
  induction h generalizing gs with
  | nil => cases h'; simp
  | @cons e f m fs h1 h2 ih =>
    cases h' with
    | @cons _ g _ gs h1' h2' =>
    obtain ⟨a, b, c⟩ := declares_same h1.2.2 h1'.2.2
    obtain ⟨i1, i2⟩ := ih h2'
    refine ⟨?_, ?_⟩
    · intro h
      rw [List.forall_mem_cons] at h ⊢
      exact ⟨⟨a ▸ h.1.1, b ▸ h.1.2⟩, i1 h.2⟩
    · rintro ⟨x, hx, hn⟩
      rcases List.mem_cons.1 hx with rfl | hx
      · exact ⟨g, by simp, c.1 hn⟩
      · obtain ⟨y, hy, hn⟩ := i2 ⟨x, hx, hn⟩
        exact ⟨y, by simp [hy], hn⟩

/-- **C88.**  `StructMapTypeFromMap` panics exactly if a key is not a string or a value does not declare anything, or — which the documentation
does not say — if all entries are required and of exact types, one of them nil, and no others are allowed (`C88_nil_violated`). -/
theorem C88_returns {P : Parse} {o : Oid} {additional : Bool} {m : List (Val × SArg)} :
    (∃ t, structMapTypeFromMap P o additional m = some t) ↔
      ∃ fs, Fields P m fs ∧ ¬ (additional = false ∧ (∀ f ∈ fs, f.2.1 = true ∧ f.2.2.isExact = true) ∧ ∃ f ∈ fs, f.2.2 = .nilT) := by
  have ev : ∀ ts : List Ty, (∃ vs, exactValues ts = some vs) ↔ ∀ t ∈ ts, t.exactValue ≠ none := by
    intro ts
    induction ts with
    | nil => simp [exactValues]
    | cons t ts ih =>
      rw [List.forall_mem_cons, ← ih, exactValues]
      cases t.exactValue <;> cases exactValues ts <;> simp
  have nil_iff : ∀ t : Ty, t.isExact = true → (t.exactValue = none ↔ t = .nilT) := by
    intro t h
    cases t <;> simp [Ty.isExact, Ty.exactValue] at h ⊢
  unfold structMapTypeFromMap
  constructor
  · rintro ⟨t, h⟩
    split at h
    · cases h
    rename_i hs
    obtain ⟨fs, h1, h2⟩ := fieldsOf_fields (o := o) (m := m) (by simpa using hs)
    rw [h1, Option.bind_some] at h
    refine ⟨fs, h2, ?_⟩
    rintro ⟨rfl, hx, f, hf, hn⟩
    unfold structMapType at h
    rw [if_pos (by simp only [Bool.not_false, Bool.true_and, List.all_eq_true, Bool.and_eq_true]; exact hx)] at h
    cases he : exactValues (fs.map (·.2.2)) with
    | none => rw [he] at h; cases h
    | some vs => exact (ev _).1 ⟨vs, he⟩ _ (List.mem_map.2 ⟨f, hf, rfl⟩) ((nil_iff _ (hx f hf).2).2 hn)
  · rintro ⟨gs, hg, hx⟩
    have hs := fields_isStructMap hg
    obtain ⟨fs, h1, h2⟩ := fieldsOf_fields (o := o) (m := m) hs
    rw [if_neg (by simp [hs]), h1, Option.bind_some]
    unfold structMapType
    split
    · rename_i hc
      simp only [Bool.and_eq_true, Bool.not_eq_true', List.all_eq_true] at hc
      obtain ⟨vs, hv⟩ := (ev (fs.map (·.2.2))).2 (by
        intro t ht hn
        obtain ⟨f, hf, rfl⟩ := List.mem_map.1 ht
        exact hx ⟨hc.1, (fields_same h2 hg).1 hc.2, (fields_same h2 hg).2 ⟨f, hf, (nil_iff _ (hc.2 f hf).2).1 hn⟩⟩)
      rw [hv]
      exact ⟨_, rfl⟩
    · exact ⟨_, rfl⟩

/-- a parser that knows the texts `int` and `5` and `nil` -/
def demoParse88 : Parse := fun s =>
  if s = [105, 110, 116] then some (.inr .intT) else if s = [53] then some (.inl (.int 5)) else if s = [110, 105, 108] then some (.inr .nilT) else none
/-- `{a: "int", b: {type: string, required: false}}` -/
def demoMap88 : List (Val × SArg) := [(.str [97], .data (.str [105, 110, 116])),
  (.str [98], .map [(.str typeKey, .type .strT), (.str requiredKey, .data (.bool false))])]
example : structMapTypeFromMap demoParse88 (.user 0) false demoMap88 =
    some (.struct (.user 0) false [(.str [97], true, .intT), (.str [98], false, .strT)]) ∧ DistinctKeys demoMap88 := by
  refine ⟨by rfl, ?_⟩
  simp only [DistinctKeys, demoMap88]
  decide +kernel
example : instanceOf Ex.E0 (.struct (.user 0) false [(.str [97], true, .intT), (.str [98], false, .strT)]) (.map [(.str [97], .int 3)]) = true ∧
    instanceOf Ex.E0 (.struct (.user 0) false [(.str [97], true, .intT), (.str [98], false, .strT)]) (.map [(.str [98], .str [])]) = false := by
  decide +kernel
/-- a key that is not a string, a text that is no type, a map without a type -/
example : structMapTypeFromMap demoParse88 (.user 0) false [(.int 1, .type .intT)] = none ∧
    structMapTypeFromMap demoParse88 (.user 0) false [(.str [97], .data (.str [63]))] = none ∧
    structMapTypeFromMap demoParse88 (.user 0) true [(.str [97], .map [(.str requiredKey, .data (.bool true))])] = none ∧
    (structMapTypeFromMap demoParse88 (.user 0) false [(.str [97], .data (.str [53]))]).isSome = true := ⟨rfl, rfl, rfl, rfl⟩

/-- **C88.**  What an entry declares does not depend on how it is written: `t`, `{type: t}` and `{type: t, required: true}` mean the same, and
a text means what it is read as. -/
theorem C88_notation {P : Parse} {o : Oid} {additional : Bool} {pre post : List (Val × SArg)} {k : Val} {a : SArg} (ha : a.isType P = true) :
    structMapTypeFromMap P o additional (pre ++ (k, .map [(.str typeKey, a)]) :: post) =
      structMapTypeFromMap P o additional (pre ++ (k, a) :: post) ∧
    structMapTypeFromMap P o additional (pre ++ (k, .map [(.str typeKey, a), (.str requiredKey, .data (.bool true))]) :: post) =
      structMapTypeFromMap P o additional (pre ++ (k, a) :: post) := by
  have gen : ∀ b : SArg, b.isDecl P = true → (∀ o, fieldOf P o (k, b) = fieldOf P o (k, a)) →
      structMapTypeFromMap P o additional (pre ++ (k, b) :: post) = structMapTypeFromMap P o additional (pre ++ (k, a) :: post) := by
    intro b hb hf
    have hda : a.isDecl P = true := by cases a <;> first | exact ha | simp [SArg.isType] at ha
    have h1 : isStructMap P (pre ++ (k, b) :: post) = isStructMap P (pre ++ (k, a) :: post) := by
      simp only [isStructMap, List.all_append, List.all_cons, hb, hda]
    have h2 : fieldsOf P o (pre ++ (k, b) :: post) = fieldsOf P o (pre ++ (k, a) :: post) := by
      clear h1
      induction pre with
      | nil => simp only [List.nil_append, fieldsOf, hf]
      | cons e pre ih => simp only [List.cons_append, fieldsOf, ih, List.length_append, List.length_cons]
    unfold structMapTypeFromMap
    rw [h1, h2]
  have e1 : eq (.str typeKey) (.str typeKey) = true := by decide
  have e2 : eq (.str requiredKey) (.str typeKey) = false := by decide
  have e3 : eq (.str typeKey) (.str requiredKey) = false := by decide
  have e4 : eq (.str requiredKey) (.str requiredKey) = true := by decide
  have hfa : ∀ o, fieldOf P o (k, a) = (asType P o (some a)).map fun t => (k, true, t) := by
    intro o; cases a <;> first | rfl | simp [SArg.isType] at ha
  constructor
  · refine gen _ ?_ ?_
    · simp [SArg.isDecl, argGet, List.find?, e1, e2, ha]
    · intro o
      rw [hfa]
      simp only [fieldOf, argGet, List.find?, e1, e2, Option.map_some, Option.map_none]
      cases asType P o (some a) <;> rfl
  · refine gen _ ?_ ?_
    · simp [SArg.isDecl, argGet, List.find?, e1, e2, e3, e4, ha, SArg.isBool]
    · intro o
      rw [hfa]
      simp only [fieldOf, argGet, List.find?, e1, e2, e3, e4, Option.map_some, Option.map_none]
      cases asType P o (some a) <;> rfl

example : (SArg.data (.str [105, 110, 116])).isType demoParse88 = true := by decide

/-- **C88 is violated** for `{a: "nil"}`: the type of the maps that have nil for `a` and nothing else cannot be made (panic), although with
`...`, or with another entry that is not exact, it can. -/
theorem C88_nil_violated :
    structMapTypeFromMap demoParse88 (.user 0) false [(.str [97], .data (.str [110, 105, 108]))] = none ∧
    structMapTypeFromMap demoParse88 (.user 0) true [(.str [97], .data (.str [110, 105, 108]))] = some (.struct (.user 0) true [(.str [97], true, .nilT)]) ∧
    structMapTypeFromMap demoParse88 (.user 0) false [(.str [97], .data (.str [110, 105, 108])), (.str [98], .type .intT)] =
      some (.struct (.user 0) false [(.str [97], true, .nilT), (.str [98], true, .intT)]) := ⟨rfl, rfl, rfl⟩

end Verif.Types
