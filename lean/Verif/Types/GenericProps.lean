import Verif.Types.GenericLemmas
import Verif.Types.AssignProps
/-!
# C75: generic types

`generic E o t` is `Generic(t)` (`typ.Generic`), `none` is Go's nil; `o` is the number of the type object that may be made.  `instanceOf E t v`
is `t.Instance(v)`.
-/
set_option autoImplicit false
set_option linter.unusedVariables false
set_option linter.unusedSimpArgs false
namespace Verif.Types
open Verif.Value

variable {E : Env}

attribute [local simp] every_any every_nil every_int every_str every_mapT every_exact every_exactD every_intRange every_floatRange every_sizedArr every_sizedMap
  every_tuple every_struct every_anyOf every_allOf every_sens every_metaT every_not

namespace Ex
/-- the type `{{"a"}, {"b", string...}}`: a tuple of an exact array and a variadic tuple -/
def g1 : Ty := .tuple (.user 0) [.exactD (.user 1) (.arr [s 97]), .tuple (.user 2) [.exact (s 98), .strT] true] false
/-- the value `{{"a"}, {"b", "c", "d"}}` -/
def w1 : Val := .arr [.arr [s 97], .arr [s 98, s 99, s 100]]
/-- the type `{"a": {"x"}, "b"?: []string}` -/
def g2 : Ty := .struct (.user 0) false [(s 97, true, .tuple (.user 1) [.exact (s 120)] false), (s 98, false, .sizedArr (.user 2) .strT 0 maxInt)]
end Ex

/-- **C75**: what is an instance of a type is an instance of its generic type.  Types without a `Generic` method are returned as they are, so
there is nothing to ask of them.  `Made`, `Ty.Acyc`, `Ty.Ok`: by the constructors.  `Coherent`: one number is one object.  Left out (see
`Plain`): structs that allow other keys, for which it is false (`C75_struct_violated`), the empty `allOf` (`C75_nil_violated`), and
tuples, structs and `allOf` types that have an `anyOf`, `oneOf`, `not` or type of types below them. -/
theorem C75_accepts_partial {n : Nat} {t : Ty} (hp : t.isGenericType = true → Plain t) (hk : t.Ok) (ha : t.Acyc) (hm : Made t)
    (hn : ¬ t.occ (.user n)) (hco : Coherent t t) :
    ∃ g, generic E (.user n) t = some g ∧ ∀ v, Value.WF v → Fits v → instanceOf E t v = true → instanceOf E g v = true := by
  by_cases hg : t.isGenericType = true
  · obtain ⟨g, h1, h2, h3⟩ := generic_info (E := E) t (hp hg) hk ha ⟨hm, hn⟩ hco (.user n) (.refl _)
    refine ⟨g, h1, fun v hv hf hi => ?_⟩
    rw [instanceOf_has ha] at hi
    rw [instanceOf_has h2.acyc]
    exact h3 v hv hf hi
  · refine ⟨t, ?_, fun _ _ _ h => h⟩
    cases t <;> first | exact absurd rfl hg | skip
    case exact v => cases v <;> first | exact absurd rfl hg | rfl
    all_goals rw [generic.eq_def]

example : Plain Ex.g1 ∧ Ex.g1.Ok ∧ Ex.g1.Acyc ∧ Made Ex.g1 ∧ ¬ Ex.g1.occ (.user 3) ∧ Coherent Ex.g1 Ex.g1 ∧ Value.WF Ex.w1 ∧ Fits Ex.w1 ∧
    instanceOf Ex.E0 Ex.g1 Ex.w1 = true ∧ (generic Ex.E0 (.user 3) Ex.g1).map Ty.depth = some 2 := by
  refine ⟨?_, ?_, ?_, ?_, ?_, ?_, ?_, ?_, by decide +kernel, by decide +kernel⟩
  · simp [Ex.g1, Ex.r15, Ex.s, Plain, PlainAll, Fits, FitsAll, NoSens, NoSensAll, Simple, rangeNode, len, maxInt]
    refine ⟨apart_of_made (by simp [Made, Ty.deep?]) (by simp [Made, Ty.deep?]) (by simp [Ty.occ]),
      apart_of_made (by simp [Made, Ty.deep?]) (by simp [Made, Ty.deep?]) ?_⟩
    simp [Ty.occ, occs]
  · simp [Ex.g1, Ex.r15, Ex.s, Ty.Ok, Oks, isDeepExact, isScalar, Value.WF, WFs]
  · simp [Ex.g1, Ex.r15, Ty.Acyc, Acycs, Ty.occ, occs]
  · simp [Made, Ex.g1, Ex.r15, every_tuple, every_exactD, every_intRange, every_str, Ty.deep?]
  · simp [Ex.g1, Ex.r15, Ty.occ, occs]
  · have hn : ∀ x, Node x Ex.g1 → x = Ex.g1 ∨ x = .exactD (.user 1) (.arr [Ex.s 97]) ∨
        x = .tuple (.user 2) [.exact (Ex.s 98), .strT] true ∨ x = .exact (Ex.s 98) ∨ x = .strT := by
      intro x hx
      cases hx with
      | refl => simp
      | part hc hx =>
        simp only [Ex.g1, parts, List.mem_cons, List.not_mem_nil, or_false] at hc
        rcases hc with rfl | rfl
        · cases hx with
          | refl => simp
          | part hc hx => simp [parts] at hc
        · cases hx with
          | refl => simp
          | part hc hx =>
            simp only [parts, List.mem_cons, List.not_mem_nil, or_false] at hc
            rcases hc with rfl | rfl <;> cases hx with
            | refl => simp
            | part hc hx => simp [parts] at hc
    intro x y o hx hy hxo hyo
    rcases hn x hx with rfl | rfl | rfl | rfl | rfl <;> rcases hn y hy with rfl | rfl | rfl | rfl | rfl <;>
      first | rfl | simp [Ty.deep?, Ex.g1] at hxo hyo <;> simp [← hxo] at hyo
  · simp [Ex.w1, Ex.s, Ex.i, Value.WF, WFs]
  · simp [Ex.w1, Ex.s, Ex.i, Fits, FitsAll, len, maxInt]

/-! ### Once is enough -/

theorem genericOf_not (o : Oid) (v : Val) : (genericOf o v).isGenericType = false := by
  cases v <;> rw [genericOf] <;> try rfl
  split <;> rfl

theorem genericsOf_not (o : Oid) : ∀ vs : List Val, ∀ g ∈ genericsOf o vs, g.isGenericType = false
  | [], g, h => by simp [genericsOf] at h
  | v :: vs, g, h => by
    rw [genericsOf] at h
    rcases List.mem_cons.1 h with rfl | h
    · exact genericOf_not _ _
    · exact genericsOf_not o vs g h

theorem commonGen_not {ts : List Ty} {c : Ty} (h : ∀ t ∈ ts, t.isGenericType = false) (hc : commonGen E ts = some c) : c.isGenericType = false := by
  cases ts with
  | nil => cases hc
  | cons t ts =>
    rw [commonGen] at hc
    split at hc <;> cases hc
    · exact h _ (by simp)
    · rfl

theorem newArrayType_not {o : Oid} {e r : Ty} (h : newArrayType o e 0 maxInt = some r) : r.isGenericType = false := by
  rw [newArrayType, clamp_full] at h
  dsimp only at h
  split at h
  · cases h; rfl
  · rw [if_neg (by simp)] at h; cases h; rfl

theorem newMapType_not {o : Oid} {k v : Ty} : (newMapType o k v 0 maxInt).isGenericType = false := by
  rw [newMapType, clamp_full]
  dsimp only
  split <;> rfl

mutual
theorem generic_not (o : Oid) : (t : Ty) → (g : Ty) → generic E o t = some g → g.isGenericType = false
  | .exact v, g, h => by rw [generic] at h; cases h; exact genericOf_not o v
  | .exactD _ v, g, h => by rw [generic] at h; cases h; exact genericOf_not o v
  | .pattern _, g, h => by rw [generic] at h; cases h; rfl
  | .tuple _ ts _, g, h => by
    rw [generic.eq_def] at h
    dsimp only at h
    split at h
    · cases h
    · split at h
      · exact newArrayType_not h
      · obtain ⟨e, _, h⟩ := Option.bind_eq_some_iff.1 h
        exact newArrayType_not h
  | .struct _ _ fs, g, h => by
    rw [generic.eq_def] at h
    dsimp only at h
    split at h
    · cases h
    · split at h
      · cases h; exact newMapType_not
      · obtain ⟨e, _, h⟩ := Option.bind_eq_some_iff.1 h
        obtain ⟨f, _, rfl⟩ := Option.map_eq_some_iff.1 h
        exact newMapType_not
  | .allOf _ ts, g, h => by
    rw [generic] at h
    obtain ⟨gs, h1, h2⟩ := Option.bind_eq_some_iff.1 h
    exact commonGen_not (generics_not o ts gs h1) h2
  | .allOfVal _ vs, g, h => by
    rw [generic] at h
    exact commonGen_not (genericsOf_not o vs) h
  | .any, g, h | .nilT, g, h | .boolT, g, h | .intT, g, h | .floatT, g, h | .strT, g, h | .regexpT, g, h | .timeT, g, h | .arrT, g, h
  | .mapT, g, h | .intRange .., g, h | .floatRange .., g, h | .sizedStr .., g, h | .ciStr _, g, h | .bin .., g, h | .sizedArr .., g, h
  | .sizedMap .., g, h | .sens .., g, h | .anyOf .., g, h | .oneOf .., g, h | .not _, g, h | .metaT _, g, h | .metaMeta, g, h => by
    rw [generic.eq_def] at h; cases h; rfl
theorem generics_not (o : Oid) : (ts : List Ty) → (gs : List Ty) → generics E o ts = some gs → ∀ g ∈ gs, g.isGenericType = false
  | [], gs, h => by rw [generics] at h; cases h; simp
  | t :: ts, gs, h => by
    rw [generics] at h
    split at h
    · cases h
      intro g hg
      rcases List.mem_cons.1 hg with rfl | hg
      · exact generic_not _ t _ (by assumption)
      · exact generics_not o ts _ (by assumption) g hg
    · cases h
end

theorem generic_same {g : Ty} (h : g.isGenericType = false) (o : Oid) : generic E o g = some g := by
  cases g <;> first | exact (Bool.false_ne_true h.symm).elim | skip
  case exact v => cases v <;> first | exact (Bool.false_ne_true h.symm).elim | rfl
  all_goals rw [generic.eq_def]

/-- **C75**: `Generic` of a generic type is that same object, whatever the type is. -/
theorem C75_idempotent {o p : Oid} {t g : Ty} (h : generic E o t = some g) : generic E p g = some g :=
  generic_same (generic_not o t g h) p

example : ∃ g, generic Ex.E0 (.user 3) Ex.g2 = some g ∧ generic Ex.E0 (.user 4) g = some g ∧ Ex.g2.isGenericType = true ∧ g.depth = 2 := by
  obtain ⟨g, h⟩ : ∃ g, generic Ex.E0 (.user 3) Ex.g2 = some g := Option.isSome_iff_exists.1 (by decide +kernel)
  refine ⟨g, h, C75_idempotent h, rfl, ?_⟩
  have : (generic Ex.E0 (.user 3) Ex.g2).map Ty.depth = some 2 := by decide +kernel
  rw [h] at this
  simpa using this

/-- **C75**: types that are not exact, and have no exact parts that `Generic` knows of, are returned as they are: the same object. -/
theorem C75_unchanged {t : Ty} (h : t.isGenericType = false) (o : Oid) : generic E o t = some t := generic_same h o

example : Ex.m1.isGenericType = false ∧ Ty.isGenericType (.sizedArr (.user 0) (.exact (Ex.s 97)) 0 3) = false := ⟨rfl, rfl⟩

/-! ### The result is never Go's nil, unless there is an empty `allOf` -/

/-- No `allOf` without operands anywhere in the type -/
def NoEmpty : Ty → Prop
  | .allOf _ ts => ts ≠ []
  | .allOfVal _ vs => vs ≠ []
  | _ => True

theorem commonGen_some {ts : List Ty} (h : ts ≠ []) : ∃ c, commonGen E ts = some c := by
  cases ts with
  | nil => exact absurd rfl h
  | cons t ts => exact ⟨_, rfl⟩

theorem newArrayType_some (o : Oid) (e : Ty) : ∃ r, newArrayType o e 0 maxInt = some r := by
  rw [newArrayType, clamp_full]
  dsimp only
  split
  · exact ⟨_, rfl⟩
  · rw [if_neg (by simp)]; exact ⟨_, rfl⟩

theorem genericsOf_ne {o : Oid} {vs : List Val} (h : vs ≠ []) : genericsOf o vs ≠ [] := by
  cases vs with
  | nil => exact absurd rfl h
  | cons v vs => simp [genericsOf]

mutual
theorem generic_some (o : Oid) : (t : Ty) → Every NoEmpty t → ∃ g, generic E o t = some g
  | .exact v, h => ⟨_, by rw [generic]⟩
  | .exactD _ v, h => ⟨_, by rw [generic]⟩
  | .pattern _, h => ⟨_, by rw [generic]⟩
  | .tuple p ts b, h => by
    obtain ⟨gs, e, hl⟩ := generics_some o ts fun t ht => h.part (show t ∈ parts (.tuple p ts b) from ht)
    rw [generic.eq_def]
    dsimp only
    rw [e]
    cases ts with
    | nil => exact newArrayType_some _ _
    | cons t ts =>
      cases gs with
      | nil => cases hl
      | cons g gs =>
        dsimp only
        obtain ⟨c, hc⟩ := commonGen_some (E := E) (ts := uniqueOf E [] ((t :: ts).zip (g :: gs))) (by simp [uniqueOf])
        rw [hc]
        exact newArrayType_some _ _
  | .struct p b fs, h => by
    obtain ⟨gs, e, hl⟩ := genericFields_some (.part o 1) fs fun f hf => h.part (show f.2.2 ∈ parts (.struct p b fs) by
      simp only [parts, List.mem_map]; exact ⟨f, hf, rfl⟩)
    rw [generic.eq_def]
    dsimp only
    rw [e]
    cases fs with
    | nil => exact ⟨_, rfl⟩
    | cons f fs =>
      cases gs with
      | nil => cases hl
      | cons g gs =>
        dsimp only
        obtain ⟨c, hc⟩ := commonGen_some (E := E) (genericsOf_ne (o := .part o 0) (vs := (f :: fs).map (·.1)) (by simp))
        rw [hc]
        exact ⟨_, rfl⟩
  | .allOf p ts, h => by
    obtain ⟨gs, e, hl⟩ := generics_some o ts fun t ht => h.part (show t ∈ parts (.allOf p ts) from ht)
    rw [generic, e]
    exact commonGen_some (by rintro rfl; exact h.here (List.length_eq_zero_iff.1 hl.symm))
  | .allOfVal _ vs, h => by
    rw [generic]
    exact commonGen_some (genericsOf_ne h.here)
  | .any, h | .nilT, h | .boolT, h | .intT, h | .floatT, h | .strT, h | .regexpT, h | .timeT, h | .arrT, h
  | .mapT, h | .intRange .., h | .floatRange .., h | .sizedStr .., h | .ciStr _, h | .bin .., h | .sizedArr .., h
  | .sizedMap .., h | .sens .., h | .anyOf .., h | .oneOf .., h | .not _, h | .metaT _, h | .metaMeta, h => by
    rw [generic.eq_def]; exact ⟨_, rfl⟩
theorem generics_some (o : Oid) : (ts : List Ty) → (∀ t ∈ ts, Every NoEmpty t) → ∃ gs, generics E o ts = some gs ∧ gs.length = ts.length
  | [], h => ⟨[], by rw [generics], rfl⟩
  | t :: ts, h => by
    obtain ⟨g, e⟩ := generic_some (.part o ts.length) t (h t (by simp))
    obtain ⟨gs, e', hl⟩ := generics_some o ts fun t ht => h t (by simp [ht])
    exact ⟨g :: gs, by rw [generics, e, e'], by simp [hl]⟩
theorem genericFields_some (o : Oid) : (fs : List (Val × Bool × Ty)) → (∀ f ∈ fs, Every NoEmpty f.2.2) →
    ∃ gs, genericFields E o fs = some gs ∧ gs.length = fs.length
  | [], h => ⟨[], by rw [genericFields], rfl⟩
  | (k, rq, t) :: fs, h => by
    obtain ⟨g, e⟩ := generic_some (.part o fs.length) t (h (k, rq, t) (by simp))
    obtain ⟨gs, e', hl⟩ := genericFields_some o fs fun t ht => h t (by simp [ht])
    exact ⟨g :: gs, by rw [genericFields, e, e'], by simp [hl]⟩
end

/-- **C75**: `Generic` returns a type, for every type that has no empty `allOf` in it. -/
theorem C75_total_partial {t : Ty} (h : Every NoEmpty t) (o : Oid) : ∃ g, generic E o t = some g := generic_some o t h

example : Every NoEmpty Ex.g2 := by
  simp [Ex.g2, NoEmpty]

/-- **C75**, violated: of `typ.AllOf`, the type of all values, and of every type that has it where `Generic` looks, `Generic` is Go's nil. -/
theorem C75_nil_violated (o p : Oid) (v : Val) : instanceOf E (.allOf o []) v = true ∧ generic E p (.allOf o []) = none := by
  rw [instanceOf_has (by simp [Ty.Acyc, occs, Acycs])]
  exact ⟨by simp [has_allOf], by simp [generic, generics, commonGen]⟩

/-! ### Of values -/

/-- **C75**: every value is an instance of the generic type of its type. -/
theorem C75_own (o p : Oid) {v : Val} (hv : Value.WF v) (hf : Fits v) :
    ∃ g, generic E o (typeOf p v) = some g ∧ instanceOf E g v = true := by
  have hg : instanceOf E (genericOf o v) v = true := by
    rw [instanceOf_has (genericOf_GI o .any hv).acyc]
    exact has_genericOf E o v hv hf
  cases v
  case nil => exact ⟨.nilT, rfl, hg⟩
  case sens v => exact ⟨_, rfl, by rw [instanceOf_has (typeOf_ok p _).acyc]; exact has_typeOf E p hv hf⟩
  all_goals exact ⟨_, rfl, hg⟩

example : Value.WF Ex.w1 ∧ Fits Ex.w1 := by
  simp [Ex.w1, Ex.s, Ex.i, Value.WF, WFs, Fits, FitsAll, len, maxInt]

/-- Values that are not collections, binaries or sensitive -/
def Flat : Val → Bool
  | .nil | .bool _ | .int _ | .float _ | .str _ | .time _ | .regexp _ => true
  | _ => false

/-- Two such values are of the same kind. -/
def SameKind : Val → Val → Bool
  | .nil, .nil | .bool _, .bool _ | .int _, .int _ | .float _, .float _ | .str _, .str _ | .time _, .time _ | .regexp _, .regexp _ => true
  | _, _ => false

theorem has_flat {v : Val} (h : Flat v = true) (o : Oid) (w : Val) : has E (genericOf o v) w = SameKind v w := by
  cases v <;> first | exact (Bool.false_ne_true h).elim | (cases w <;> simp [genericOf, has, hasP, SameKind])

/-- **C75**: the generic type of an exact scalar accepts the values of the kind of that scalar, and no others.  Binaries are left out: see
`C75_binary_violated`. -/
theorem C75_scalar {v : Val} (h : Flat v = true) (o p : Oid) :
    ∃ g, generic E o (typeOf p v) = some g ∧ ∀ w, instanceOf E g w = SameKind v w := by
  refine ⟨genericOf o v, ?_, fun w => ?_⟩
  · cases v <;> first | exact (Bool.false_ne_true h).elim | rfl
  · rw [← has_flat (E := E) h o, instanceOf_has]
    cases v <;> first | exact (Bool.false_ne_true h).elim | simp [genericOf, Ty.Acyc]

example : Flat (Ex.i 3) = true ∧ SameKind (Ex.i 3) (Ex.i 4) = true ∧ SameKind (Ex.i 3) (Ex.s 97) = false := ⟨rfl, rfl, rfl⟩

/-- What a collection made of `vs` says of the members of others: nothing if there are none or if they are not all of one kind. -/
def Alike (vs ws : List Val) : Prop := (∀ a ∈ vs, ∀ b ∈ vs, SameKind a b = true) → ∀ a ∈ vs, ∀ w ∈ ws, SameKind a w = true

theorem flat_asg {v w : Val} (h : Flat v = true) (h' : Flat w = true) (o p : Oid) : genAsg (genericOf o v) (genericOf p w) = SameKind v w := by
  cases v <;> first | exact (Bool.false_ne_true h).elim | (cases w <;> first | exact (Bool.false_ne_true h').elim | rfl)

theorem sameKind_refl {v : Val} (h : Flat v = true) : SameKind v v = true := by cases v <;> first | exact (Bool.false_ne_true h).elim | rfl
theorem sameKind_symm {v w : Val} : SameKind v w = SameKind w v := by cases v <;> cases w <;> rfl
theorem sameKind_trans {u v w : Val} (h : SameKind u v = true) (h' : SameKind v w = true) : SameKind u w = true := by
  cases u <;> cases v <;> first | exact (Bool.false_ne_true h).elim | (cases w <;> first | exact (Bool.false_ne_true h').elim | rfl)

/-- `gs` are the generic types of the values `vs`. -/
def AreGen (vs : List Val) (gs : List Ty) : Prop := List.Forall₂ (fun v g => ∃ o, g = genericOf o v) vs gs

theorem has_alike {vs : List Val} {gs : List Ty} (h : ∀ v ∈ vs, Flat v = true) (hg : AreGen vs gs) (ws : List Val) :
    (∀ w ∈ ws, has E (commonGeneric gs) w = true) ↔ Alike vs ws := by
  cases hg with
  | nil => simp [commonGeneric, Alike, has, hasP]
  | @cons v g vs gs e hg =>
    obtain ⟨o, rfl⟩ := e
    rw [commonGeneric]
    have h1 := h v (by simp)
    have hall : (gs.all (genAsg (genericOf o v)) = true) ↔ ∀ w ∈ vs, SameKind v w = true := by
      have h2 := fun w hw => h w (List.mem_cons_of_mem v hw)
      clear h
      induction hg with
      | nil => simp
      | @cons w g vs gs e hg ih =>
        obtain ⟨p, rfl⟩ := e
        have := ih fun x hx => h2 x (by simp [hx])
        rw [List.all_cons, Bool.and_eq_true, flat_asg h1 (h2 w (by simp))]
        constructor
        · rintro ⟨a, b⟩ x hx
          rcases List.mem_cons.1 hx with rfl | hx
          exacts [a, this.1 b x hx]
        · exact fun h => ⟨h w (by simp), this.2 fun x hx => h x (by simp [hx])⟩
    split
    · rename_i hc
      have hc := hall.1 hc
      have hk : ∀ a ∈ v :: vs, SameKind v a = true := fun a ha => (List.mem_cons.1 ha).elim (fun e => by rw [e]; exact sameKind_refl h1) (hc a)
      constructor
      · intro hw _ a ha w hw'
        have := hw w hw'
        rw [has_flat h1] at this
        exact sameKind_trans (by rw [sameKind_symm]; exact hk a ha) this
      · intro ha w hw
        rw [has_flat h1]
        exact ha (fun a h1 b h2 => sameKind_trans (by rw [sameKind_symm]; exact hk a h1) (hk b h2)) v (by simp) w hw
    · rename_i hc
      have hc := fun h' => hc (hall.2 h')
      exact ⟨fun _ ha => absurd (fun w hw => ha v (by simp) w (by simp [hw])) hc, fun _ w _ => by simp [has, hasP]⟩

theorem areGen (o : Oid) : ∀ vs, AreGen vs (genericsOf o vs)
  | [] => by rw [genericsOf]; exact .nil
  | v :: vs => by rw [genericsOf]; exact .cons ⟨_, rfl⟩ (areGen o vs)

theorem areGen_keys (o : Oid) : ∀ es : List (Val × Val), AreGen (es.map (·.1)) (genericKeys o es)
  | [] => by rw [genericKeys]; exact .nil
  | (k, v) :: es => by rw [genericKeys]; exact .cons ⟨_, rfl⟩ (areGen_keys o es)

theorem areGen_vals (o : Oid) : ∀ es : List (Val × Val), AreGen (es.map (·.2)) (genericVals o es)
  | [] => by rw [genericVals]; exact .nil
  | (k, v) :: es => by rw [genericVals]; exact .cons ⟨_, rfl⟩ (areGen_vals o es)

/-- **C75**: the generic type of an exact array of scalars loses the values and their number: it accepts exactly the arrays all of whose elements
are of the one kind that all the values have, or any array where there is no such kind. -/
theorem C75_array {vs : List Val} (h : ∀ v ∈ vs, Flat v = true) (o p : Oid) :
    ∃ g, generic E o (typeOf p (.arr vs)) = some g ∧
      ∀ w, Fits w → (instanceOf E g w = true ↔ ∃ ws, w = .arr ws ∧ Alike vs ws) := by
  refine ⟨_, rfl, fun w hf => ?_⟩
  have hc := fun ws => has_alike (E := E) h (areGen o vs) ws
  rw [instanceOf_has]
  · rw [genericOf, has_sizedArr]
    constructor
    · rintro ⟨ws, rfl, _, _, h⟩; exact ⟨ws, rfl, (hc ws).1 h⟩
    · rintro ⟨ws, rfl, h⟩
      rw [Fits] at hf
      exact ⟨ws, rfl, by simp [len], hf.1, (hc ws).2 h⟩
  · exact (genericOf_ok o (.arr vs)).acyc

example : (∀ v ∈ [Ex.s 97, Ex.s 98], Flat v = true) ∧ Alike [Ex.s 97, Ex.s 98] [Ex.s 99] ∧ ¬ Alike [Ex.s 97, Ex.s 98] [Ex.i 1] ∧
    Alike [Ex.s 97, Ex.i 1] [.arr []] := by
  simp [Flat, Ex.s, Ex.i, Alike, SameKind]

/-- **C75**: the same for exact maps, whose keys and values are treated apart. -/
theorem C75_map {es : List (Val × Val)} (h : ∀ e ∈ es, Flat e.1 = true ∧ Flat e.2 = true) (o p : Oid) :
    ∃ g, generic E o (typeOf p (.map es)) = some g ∧
      ∀ w, Fits w → (instanceOf E g w = true ↔
        ∃ ws, w = .map ws ∧ Alike (es.map (·.1)) (ws.map (·.1)) ∧ Alike (es.map (·.2)) (ws.map (·.2))) := by
  refine ⟨_, rfl, fun w hf => ?_⟩
  have hk := fun ws => has_alike (E := E) (by simpa using fun a b h' => (h (a, b) h').1) (areGen_keys o es) ws
  have hv := fun ws => has_alike (E := E) (by simpa using fun a b h' => (h (b, a) h').2) (areGen_vals o es) ws
  rw [instanceOf_has (genericOf_ok o (.map es)).acyc, genericOf]
  split
  · rename_i h1 h2
    rw [h1] at hk
    rw [h2] at hv
    have hk := fun ws => (hk ws).1 fun _ _ => by simp [has, hasP]
    have hv := fun ws => (hv ws).1 fun _ _ => by simp [has, hasP]
    cases w <;> simp [has, hasP, hk, hv]
  · rw [has_sizedMap]
    constructor
    · rintro ⟨ws, rfl, _, _, h⟩
      exact ⟨ws, rfl, (hk _).1 (by simpa using fun a b h' => (h (a, b) h').1), (hv _).1 (by simpa using fun a b h' => (h (b, a) h').2)⟩
    · rintro ⟨ws, rfl, h1, h2⟩
      rw [Fits] at hf
      exact ⟨ws, rfl, by simp [len], hf.1, fun e he => ⟨(hk _).2 h1 _ (List.mem_map_of_mem he), (hv _).2 h2 _ (List.mem_map_of_mem he)⟩⟩

example : (∀ e ∈ [(Ex.s 97, Ex.i 1), (Ex.s 98, Ex.s 98)], Flat e.1 = true ∧ Flat e.2 = true) := by simp [Flat, Ex.s, Ex.i]

/-! ### Where the documentation is not followed -/

/-- **C75**, violated: `Generic` of a struct that allows other keys, here `{"a": int, ...}`, is a map type of the keys and values of the struct
alone, here `map[string]int`; so `{"a": 1, "b": "b"}` is an instance of the first and not of the second. -/
theorem C75_struct_violated :
    let t : Ty := .struct (.user 0) true [(Ex.s 97, true, .intT)]
    let v : Val := .map [(Ex.s 97, Ex.i 1), (Ex.s 98, Ex.s 98)]
    instanceOf Ex.E0 t v = true ∧ generic Ex.E0 (.user 1) t = some (.sizedMap (.user 1) .strT .intT 0 maxInt) ∧
      instanceOf Ex.E0 (.sizedMap (.user 1) .strT .intT 0 maxInt) v = false := by
  refine ⟨by decide +kernel, ?_, by decide +kernel⟩
  simp [generic, genericFields, genericsOf, genericOf, commonGen, newMapType, clamp_full, Ty.isAny, Ex.s]

/-- **C75**, violated: "exact types will loose information about what instance they represent" (typ/utils.go:24), but the exact type of a
binary is returned as it is and accepts equal binaries only. -/
theorem C75_binary_violated (b c : List UInt8) (o p : Oid) :
    generic E o (typeOf p (.bin b)) = some (typeOf p (.bin b)) ∧ (instanceOf E (typeOf p (.bin b)) (.bin c) = true ↔ b = c) := by
  refine ⟨rfl, ?_⟩
  rw [instanceOf_has (typeOf_ok p _).acyc]
  simp [typeOf, has, hasP, eq]

/-- **C75**, violated: "nested types will return a generic version of the contained types as well" (typ/utils.go:25-26), but of an array, map
or sensitive type the contained types stay exact, whatever they are. -/
theorem C75_nested_violated (o p : Oid) (lo hi : Int) (v : Val) :
    generic E o (.sizedArr p (.exact v) lo hi) = some (.sizedArr p (.exact v) lo hi) ∧
    generic E o (.sizedMap p .strT (.exact v) lo hi) = some (.sizedMap p .strT (.exact v) lo hi) ∧
    generic E o (.sens p (.exact v)) = some (.sens p (.exact v)) := ⟨rfl, rfl, rfl⟩

/-- **C75**: the generic type of a tuple depends on the order of its elements: of `{int, 1..5}` it is `[]int`, of `{1..5, int}` it is the type
of all arrays. -/
theorem C75_order :
    generic Ex.E0 (.user 1) (.tuple (.user 0) [.intT, Ex.r15] false) = some (.sizedArr (.user 1) .intT 0 maxInt) ∧
    generic Ex.E0 (.user 1) (.tuple (.user 0) [Ex.r15, .intT] false) = some .arrT := by
  have h1 : assignable Ex.E0 .intT Ex.r15 = true := by decide +kernel
  have h2 : assignable Ex.E0 Ex.r15 .intT = false := by decide +kernel
  have h3 : Ty.equals .intT Ex.r15 = false := by decide +kernel
  have h4 : Ty.equals Ex.r15 .intT = false := by decide +kernel
  have e : ∀ o, generic Ex.E0 o Ex.r15 = some Ex.r15 := fun o => rfl
  constructor
  · rw [generic.eq_def]
    simp [generics, e, generic, uniqueOf, commonGen, h1, h3, h4, newArrayType, clamp_full, Ty.isAny]
  · rw [generic.eq_def]
    simp [generics, e, generic, uniqueOf, commonGen, h2, h3, h4, newArrayType, clamp_full, Ty.isAny]

end Verif.Types
