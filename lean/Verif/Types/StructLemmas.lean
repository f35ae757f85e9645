import Verif.Types.Own
import Verif.Types.Struct
/-!
# Lemmas about struct map types
-/
set_option autoImplicit false
set_option linter.unusedVariables false
namespace Verif.Types
open Verif.Value

/-- No two entries have equal keys. -/
def DistinctKeys {α : Type} (fs : List (Val × α)) : Prop := fs.Pairwise fun a b => eq a.1 b.1 = false

variable {E : Env}

theorem hasFields_iff {fs : List (Val × Bool × Ty)} {es : List (Val × Val)} :
    hasFields E (fun o vs v => (typesOf o vs).all fun t => has0 E t v) fs es = true ↔
      ∀ f ∈ fs, (f.2.1 = true → (mapGet es f.1).isSome = true) ∧ ∀ w, mapGet es f.1 = some w → has E f.2.2 w = true := by
  induction fs with
  | nil => simp [hasFields]
  | cons f fs ih =>
    obtain ⟨k, rq, t⟩ := f
    rw [hasFields, Bool.and_eq_true, ih]
    cases hm : mapGet es k with
    | none => cases rq <;> simp [hm]
    | some v => simp [hm, has]

theorem mapGet_isSome {es : List (Val × Val)} {k : Val} : (mapGet es k).isSome = es.any fun e => eq k e.1 := by
  rw [mapGet, Option.isSome_map, Bool.eq_iff_iff, List.find?_isSome, List.any_eq_true]

theorem countP_or {α : Type} {p q : α → Bool} {l : List α} (h : ∀ a ∈ l, p a = true → q a = false) :
    l.countP (fun a => p a || q a) = l.countP p + l.countP q := by
  induction l with
  | nil => rfl
  | cons a l ih =>
    have ih := ih fun b hb => h b (by simp [hb])
    have ha := h a (by simp)
    rw [List.countP_cons, List.countP_cons, List.countP_cons, ih]
    cases hp : p a <;> cases hq : q a <;> simp [hp, hq] at ha ⊢ <;> omega

theorem count_key {es : List (Val × Val)} (hw : ∀ e ∈ es, Value.WF e.1) (hd : DistinctKeys es) {k : Val} (hk : Value.WF k) :
    es.countP (fun e => eq k e.1) = if (mapGet es k).isSome then 1 else 0 := by
  rw [mapGet_isSome]
  induction es with
  | nil => rfl
  | cons e es ih =>
    have ih := ih (fun x hx => hw x (by simp [hx])) hd.tail
    rw [List.countP_cons, List.any_cons, ih]
    cases he : eq k e.1 with
    | false => simp only [Bool.false_or, Bool.false_eq_true, if_false, Nat.add_zero]
    | true =>
      have : (es.any fun e => eq k e.1) = false := by
        rw [List.any_eq_false]
        intro x hx hc
        have h1 := (List.pairwise_cons.1 hd).1 x hx
        have h2 := laws.trans _ _ _ (hw e (by simp)) hk (hw x (by simp [hx])) (laws.symm _ _ hk (hw e (by simp)) he) hc
        rw [h1] at h2; cases h2
      simp [this]

/-- With distinct keys, the code counts the keys of the map that are declared. -/
theorem countFields_eq {fs : List (Val × Bool × Ty)} {es : List (Val × Val)} (hfw : ∀ f ∈ fs, Value.WF f.1)
    (hew : ∀ e ∈ es, Value.WF e.1) (hfd : DistinctKeys fs) (hed : DistinctKeys es) :
    countFields fs es = es.countP fun e => hasEntry fs e.1 := by
  induction fs with
  | nil => simp [countFields, hasEntry]
  | cons f fs ih =>
    obtain ⟨k, rq, t⟩ := f
    have hk := hfw _ (List.mem_cons_self (a := (k, rq, t)) (l := fs))
    rw [countFields, ih (fun x hx => hfw x (by simp [hx])) hfd.tail, ← count_key hew hed hk, ← countP_or]
    · rfl
    · intro e he h
      rw [hasEntry, List.any_eq_false]
      intro f hf hc
      have h1 := (List.pairwise_cons.1 hfd).1 f hf
      have hfk := hfw f (by simp [hf])
      have h2 := laws.trans _ _ _ hk (hew e he) hfk h (laws.symm _ _ hfk (hew e he) hc)
      rw [h1] at h2; cases h2

theorem has_struct {o : Oid} {add : Bool} {fs : List (Val × Bool × Ty)} {es : List (Val × Val)} (hfw : ∀ f ∈ fs, Value.WF f.1)
    (hew : ∀ e ∈ es, Value.WF e.1) (hfd : DistinctKeys fs) (hed : DistinctKeys es) :
    has E (.struct o add fs) (.map es) = true ↔
      (∀ f ∈ fs, (f.2.1 = true → (mapGet es f.1).isSome = true) ∧ ∀ w, mapGet es f.1 = some w → has E f.2.2 w = true) ∧
      (add = true ∨ ∀ e ∈ es, hasEntry fs e.1 = true) := by
  rw [has, hasP, Bool.and_eq_true, hasFields_iff, Bool.or_eq_true, beq_iff_eq, countFields_eq hfw hew hfd hed,
    List.countP_eq_length]

/-! ## Validate -/

theorem validateEntries_nil {es : List (Val × Val)} {fs : List (Val × Bool × Ty)} :
    validateEntries E es fs = [] ↔
      ∀ f ∈ fs, (f.2.1 = true → (mapGet es f.1).isSome = true) ∧ ∀ w, mapGet es f.1 = some w → instanceOf E f.2.2 w = true := by
  induction fs with
  | nil => simp [validateEntries]
  | cons f fs ih =>
    obtain ⟨k, rq, t⟩ := f
    rw [validateEntries, List.append_eq_nil_iff, ih, List.forall_mem_cons]
    apply and_congr_left'
    cases hm : mapGet es k with
    | none => cases rq <;> simp
    | some v => cases hi : instanceOf E t v <;> simp [hi]

theorem validateKeys_nil {es : List (Val × Val)} {fs : List (Val × Bool × Ty)} :
    validateKeys fs es = [] ↔ ∀ e ∈ es, hasEntry fs e.1 = true := by
  induction es with
  | nil => simp [validateKeys]
  | cons e es ih =>
    obtain ⟨k, v⟩ := e
    rw [validateKeys, List.append_eq_nil_iff, ih, List.forall_mem_cons]
    cases hasEntry fs k <;> simp

theorem verboseEntries_eq {es : List (Val × Val)} {fs : List (Val × Bool × Ty)} :
    ∀ ok, verboseEntries E es ok fs = (ok && (validateEntries E es fs).isEmpty) := by
  induction fs with
  | nil => intro ok; simp [verboseEntries, validateEntries]
  | cons f fs ih =>
    intro ok
    obtain ⟨k, rq, t⟩ := f
    rw [verboseEntries, validateEntries]
    cases hm : mapGet es k with
    | none => cases rq <;> simp [ih]
    | some v => cases hi : instanceOf E t v <;> simp [ih, hi]

theorem verboseKeys_eq {es : List (Val × Val)} {fs : List (Val × Bool × Ty)} :
    ∀ ok, verboseKeys fs ok es = (ok && (validateKeys fs es).isEmpty) := by
  induction es with
  | nil => intro ok; simp [verboseKeys, validateKeys]
  | cons e es ih =>
    intro ok
    obtain ⟨k, v⟩ := e
    rw [verboseKeys, validateKeys]
    cases hasEntry fs k <;> simp [ih]

/-! ## Exact maps -/

/-- An exact type has the exact value as its instance, and no other. -/
theorem has_exactValue {t : Ty} {w : Val} (h : t.exactValue = some w) (v : Val) : has E t v = eq w v := by
  cases t <;> simp [Ty.exactValue] at h <;> subst h <;> simp [has, hasP]

theorem exactValues_iff {ts : List Ty} {vs : List Val} : exactValues ts = some vs ↔ ts.map Ty.exactValue = vs.map some := by
  induction ts generalizing vs with
  | nil => cases vs <;> simp [exactValues]
  | cons t ts ih =>
    rw [exactValues]
    cases ht : t.exactValue with
    | none => cases vs <;> simp [ht]
    | some v =>
      cases hs : exactValues ts with
      | none =>
        cases vs with
        | nil => simp
        | cons w vs =>
          simp [ht]
          intro _ hc
          rw [ih.2 hc] at hs; cases hs
      | some us =>
        cases vs with
        | nil => simp
        | cons w vs =>
          have e := ih.1 hs
          simp only [Option.some.injEq, List.cons.injEq, List.map_cons, ht, e]
          constructor
          · rintro ⟨rfl, rfl⟩; exact ⟨rfl, rfl⟩
          · rintro ⟨rfl, h⟩
            refine ⟨rfl, ?_⟩
            have := (List.map_inj_right (f := some) (by simp)).1 h
            exact this

theorem putAll_distinct {es r : List (Val × Val)} (h : DistinctKeys (es ++ r)) (hw : ∀ e ∈ es ++ r, Value.WF e.1) :
    structMapType.putAll es r = es ++ r := by
  have hput : ∀ (es : List (Val × Val)) (k v : Val), (∀ e ∈ es, eq k e.1 = false) →
      structMapType.put es k v = es ++ [(k, v)] := by
    intro es k v
    induction es with
    | nil => intro _; rfl
    | cons e es ih =>
      intro h
      rw [structMapType.put, h e (by simp), ih fun x hx => h x (by simp [hx])]
      rfl
  induction r generalizing es with
  | nil => simp [structMapType.putAll]
  | cons e r ih =>
    obtain ⟨k, v⟩ := e
    rw [structMapType.putAll, hput, ih]
    · simp
    · simpa [DistinctKeys] using h
    · simpa using hw
    · intro e he
      cases hc : eq k e.1 with
      | false => rfl
      | true =>
        have h1 := (List.pairwise_append.1 h).2.2 e he (k, v) (by simp)
        rw [laws.symm _ _ (hw (k, v) (by simp)) (hw e (by simp [he])) hc] at h1
        cases h1

theorem eqMap_exact {es : List (Val × Val)} : ∀ {fs : List (Val × Bool × Ty)} {vs : List Val},
    exactValues (fs.map (·.2.2)) = some vs → (∀ f ∈ fs, f.2.1 = true) →
    eqMap ((fs.map (·.1)).zip vs) es = hasFields E (fun o vs v => (typesOf o vs).all fun t => has0 E t v) fs es
  | [], vs, h, _ => by
    rw [exactValues_iff] at h
    cases vs <;> simp at h ⊢
    simp [eqMap, hasFields]
  | (k, rq, t) :: fs, vs, h, hr => by
    have h' := exactValues_iff.1 h
    cases vs with
    | nil => simp at h'
    | cons v vs =>
      simp only [List.map_cons, List.cons.injEq] at h'
      have hrq : rq = true := hr (k, rq, t) (by simp)
      subst hrq
      rw [List.map_cons, List.zip_cons_cons, eqMap, hasFields, eqMap_exact (exactValues_iff.2 h'.2) fun f hf => hr f (by simp [hf]),
        mapGet]
      cases es.find? fun e => eq k e.1 with
      | none => rfl
      | some e => simp only [Option.map_some]; rw [← has_exactValue h'.1]; rfl

theorem countFields_all {es : List (Val × Val)} : ∀ {fs : List (Val × Bool × Ty)},
    hasFields E (fun o vs v => (typesOf o vs).all fun t => has0 E t v) fs es = true → (∀ f ∈ fs, f.2.1 = true) →
    countFields fs es = fs.length
  | [], _, _ => rfl
  | (k, rq, t) :: fs, h, hr => by
    rw [hasFields_iff] at h
    have h1 := (h (k, rq, t) (by simp)).1 (hr (k, rq, t) (by simp))
    rw [countFields, countFields_all (hasFields_iff.2 fun f hf => h f (by simp [hf])) fun f hf => hr f (by simp [hf])]
    simp only at h1
    rw [if_pos h1, List.length_cons]
    omega

theorem exactValues_length {ts : List Ty} {vs : List Val} (h : exactValues ts = some vs) : vs.length = ts.length := by
  have := congrArg List.length (exactValues_iff.1 h)
  simpa using this.symm

/-- The exact map type that is made of required exact entries accepts what the struct type would. -/
theorem has_exact_struct {o o' : Oid} {fs : List (Val × Bool × Ty)} {vs : List Val} (h : exactValues (fs.map (·.2.2)) = some vs)
    (hr : ∀ f ∈ fs, f.2.1 = true) (v : Val) :
    has E (.exactD o (.map ((fs.map (·.1)).zip vs))) v = has E (.struct o' false fs) v := by
  cases v with
  | map es =>
    simp only [has, hasP, eq]
    rw [eqMap_exact h hr]
    cases hf : hasFields E (fun o vs v => (typesOf o vs).all fun t => has0 E t v) fs es with
    | false => simp
    | true =>
      rw [countFields_all hf hr]
      have := exactValues_length h
      simp only [List.length_map] at this
      rw [List.length_zip, this, List.length_map, Nat.min_self]
      simp
  | _ => simp [has, hasP, eq]

theorem entriesOf_mem {o : Oid} {es : List (Val × Val)} {f : Val × Bool × Ty} (h : f ∈ Ty.structEntries.entriesOf o es) :
    f.2.1 = true ∧ ∃ e ∈ es, f.1 = e.1 ∧ ∃ o', f.2.2 = typeOf o' e.2 := by
  induction es with
  | nil => cases h
  | cons e es ih =>
    obtain ⟨k, v⟩ := e
    rw [Ty.structEntries.entriesOf] at h
    rcases List.mem_cons.1 h with rfl | h
    · exact ⟨rfl, (k, v), by simp, rfl, _, rfl⟩
    · obtain ⟨h1, e, he, h2⟩ := ih h
      exact ⟨h1, e, by simp [he], h2⟩

theorem entriesOf_distinct {o : Oid} {es : List (Val × Val)} (h : DistinctKeys es) :
    DistinctKeys (Ty.structEntries.entriesOf o es) := by
  induction es with
  | nil => exact .nil
  | cons e es ih =>
    obtain ⟨k, v⟩ := e
    rw [Ty.structEntries.entriesOf]
    refine List.pairwise_cons.2 ⟨fun f hf => ?_, ih h.tail⟩
    obtain ⟨_, e', he', h1, _⟩ := entriesOf_mem hf
    rw [h1]
    exact (List.pairwise_cons.1 h).1 e' he'

theorem has_typeOf_eq (o : Oid) {v : Val} (hs : ∀ w, v ≠ .sens w) (w : Val) : has E (typeOf o v) w = eq v w := by
  cases v <;> first
    | (simp only [typeOf, has, hasP]; done)
    | (exact absurd rfl (hs _))
    | (cases w <;> simp [typeOf, has, hasP, eq])

/-- The entries of an exact map type that no sensitive value is in say what the type accepts. -/
theorem has_exact_entries {o o' : Oid} {zs : List (Val × Val)} (hs : ∀ e ∈ zs, ∀ w, e.2 ≠ .sens w) (v : Val) :
    has E (.exactD o (.map zs)) v = has E (.struct o' false (Ty.structEntries.entriesOf o zs)) v := by
  cases v with
  | map es =>
    have key : eqMap zs es =
        hasFields E (fun o vs v => (typesOf o vs).all fun t => has0 E t v) (Ty.structEntries.entriesOf o zs) es := by
      induction zs with
      | nil => simp [eqMap, hasFields, Ty.structEntries.entriesOf]
      | cons e zs ih =>
        obtain ⟨k, v⟩ := e
        rw [Ty.structEntries.entriesOf, eqMap, hasFields, ih fun e he => hs e (by simp [he]), mapGet]
        cases es.find? fun e => eq k e.1 with
        | none => rfl
        | some e =>
          simp only [Option.map_some]
          rw [← has_typeOf_eq (E := E) (.part o zs.length) (hs (k, v) (by simp))]; rfl
    have hl : ∀ zs : List (Val × Val), (Ty.structEntries.entriesOf o zs).length = zs.length := by
      intro zs
      induction zs with
      | nil => rfl
      | cons e zs ih => obtain ⟨k, v⟩ := e; simp [Ty.structEntries.entriesOf, ih]
    simp only [has, hasP, eq]
    rw [key]
    cases hf : hasFields E (fun o vs v => (typesOf o vs).all fun t => has0 E t v) (Ty.structEntries.entriesOf o zs) es with
    | false => simp
    | true => rw [countFields_all hf fun f hf => (entriesOf_mem hf).1, hl]; simp
  | _ => simp [has, hasP, eq]

end Verif.Types
