import Verif.Reflect.OfTypeLemmas
import Verif.Types.StructLemmas
import Verif.Types.InstHas
/-!
# Lemmas for C87: the instances of a type have a place in a variable of its Go type
-/
set_option autoImplicit false
set_option linter.unusedVariables false
set_option linter.unusedSimpArgs false
set_option linter.unusedSectionVars false
namespace Verif.Reflect
open Verif.Value Verif.Types

variable {E : Types.Env}

theorem reflectTypes_eq (ts : List Ty) : reflectTypes E ts = ts.map fun t => (t, reflectType E t) := by
  induction ts with
  | nil => rfl
  | cons t ts ih => rw [reflectTypes, ih]; rfl

theorem reflectFields_eq (fs : List (Val × Bool × Ty)) : reflectFields E fs = fs.map fun f => reflectType E f.2.2 := by
  induction fs with
  | nil => rfl
  | cons t ts ih => obtain ⟨k, rq, t⟩ := t; rw [reflectFields, ih]; rfl

theorem unique_sub {xs u : List (Ty × RT)} : ∀ x ∈ uniqueRT E u xs, x ∈ u ∨ x ∈ xs := by
  induction xs generalizing u with
  | nil => intro x hx; rw [uniqueRT] at hx; exact .inl (by simpa using hx)
  | cons y ys ih =>
    intro x hx
    rw [uniqueRT] at hx
    split at hx
    · rcases ih x hx with h | h
      · exact .inl h
      · exact .inr (by simp [h])
    · rcases ih x hx with h | h
      · rcases List.mem_cons.1 h with rfl | h
        · exact .inr (by simp)
        · exact .inl h
      · exact .inr (by simp [h])

theorem unique_keeps {xs u : List (Ty × RT)} : ∀ x ∈ u, x ∈ uniqueRT E u xs := by
  induction xs generalizing u with
  | nil => intro x hx; rw [uniqueRT]; simpa using hx
  | cons y ys ih =>
    intro x hx
    rw [uniqueRT]
    split
    · exact ih x hx
    · exact ih x (by simp [hx])

/-- Each of the types is kept, or an equal one is. -/
theorem unique_has {xs u : List (Ty × RT)} : ∀ x ∈ xs, ∃ y ∈ uniqueRT E u xs, y = x ∨ Ty.equals x.1 y.1 = true := by
  induction xs generalizing u with
  | nil => simp
  | cons z zs ih =>
    intro x hx
    rw [uniqueRT]
    split
    · rename_i hu
      rcases List.mem_cons.1 hx with rfl | hx
      · obtain ⟨y, hy, h⟩ := List.any_eq_true.1 hu
        exact ⟨y, unique_keeps y hy, .inr (by simp at h; exact h.2)⟩
      · exact ih x hx
    · rcases List.mem_cons.1 hx with rfl | hx
      · exact ⟨x, unique_keeps x (by simp), .inl rfl⟩
      · exact ih x hx

theorem unique_ne {xs : List (Ty × RT)} (h : xs ≠ []) : uniqueRT E [] xs ≠ [] := by
  cases xs with
  | nil => exact absurd rfl h
  | cons x xs =>
    obtain ⟨y, hy, -⟩ := unique_has (E := E) (u := []) x (List.mem_cons_self (a := x) (l := xs))
    exact List.ne_nil_of_mem hy

theorem commonT_nn' : ∀ (rs : List RT) (p : GT), commonT (some p) rs ≠ some none
  | [], p => by simp [commonT]
  | none :: _, p => by simp [commonT]
  | some none :: r, p => by simp [commonT]
  | some (some t) :: r, p => by
    rw [commonT]
    split
    · exact commonT_nn' r p
    · split
      · exact commonT_nn' r t
      · simp [RT.of]

theorem commonT_nn {rs : List RT} (h : rs ≠ []) (hn : ∀ r ∈ rs, r ≠ some none) : commonT none rs ≠ some none := by
  match rs with
  | none :: _ => simp [commonT]
  | some none :: _ => exact absurd rfl (hn _ (by simp))
  | some (some t) :: r => rw [commonT]; exact commonT_nn' r t

theorem sliceOfT_nn (r : RT) : sliceOfT r ≠ some none := by
  unfold sliceOfT; split <;> simp [RT.of]

theorem mapOfT_nn (r s : RT) : mapOfT r s ≠ some none := by
  unfold mapOfT
  split
  · cases mapOf _ _ <;> simp
  · simp

theorem sliceOfT_of {r : RT} {g : GT} (h : sliceOfT r = .of g) : ∃ e, r = .of e ∧ g = .slice e := by
  unfold sliceOfT at h
  split at h
  · cases h; exact ⟨_, rfl, rfl⟩
  · cases h

theorem mapOfT_of {r s : RT} {g : GT} (h : mapOfT r s = .of g) : ∃ k v, r = .of k ∧ s = .of v ∧ k.comparable = true ∧ g = .map k v := by
  unfold mapOfT at h
  split at h
  · rename_i k v
    obtain ⟨t, ht, hg⟩ := Option.map_eq_some_iff.1 h
    cases hg
    exact ⟨k, v, rfl, rfl, mapOf_eq ht⟩
  · cases h

/-- Each element is an instance of one of the types. -/
theorem zip_mem {ts : List Ty} : ∀ {vs : List Val}, hasZip E (fun o vs v => (typesOf o vs).all fun t => has0 E t v) ts vs = true →
    ∀ v ∈ vs, ∃ t ∈ ts, has E t v = true := by
  induction ts with
  | nil => intro vs h v hv; cases vs with | nil => simp at hv | cons _ _ => simp [hasZip] at h
  | cons t ts ih =>
    intro vs h v hv
    cases vs with
    | nil => simp at hv
    | cons x xs =>
      rw [hasZip, Bool.and_eq_true] at h
      rcases List.mem_cons.1 hv with rfl | hv
      · exact ⟨t, by simp, h.1⟩
      · obtain ⟨u, hu, h'⟩ := ih h.2 v hv
        exact ⟨u, by simp [hu], h'⟩

theorem var_mem : ∀ {ts : List Ty} {vs : List Val}, ts ≠ [] → hasVar E (fun o vs v => (typesOf o vs).all fun t => has0 E t v) ts vs = true →
    ∀ v ∈ vs, ∃ t ∈ ts, has E t v = true
  | [], _, hn, _, _, _ => absurd rfl hn
  | [t], vs, _, h, v, hv => by
    rw [hasVar, List.all_eq_true] at h
    exact ⟨t, by simp, h v hv⟩
  | t :: t' :: ts, [], _, _, v, hv => by simp at hv
  | t :: t' :: ts, x :: xs, _, h, v, hv => by
    rw [hasVar, Bool.and_eq_true] at h
    rcases List.mem_cons.1 hv with rfl | hv
    · exact ⟨t, by simp, h.1⟩
    · obtain ⟨u, hu, h'⟩ := var_mem (by simp) h.2 v hv
      exact ⟨u, by simp [hu], h'⟩

/-- What is proved of a type: `ReflectType` does not return nil, and a variable of the type that it returns has a place for the instances. -/
structure Fine (E : Types.Env) (t : Ty) : Prop where
  nn : reflectType E t ≠ some none
  wide : ∀ g, reflectType E t = .of g → Wide g
  takes : ∀ g, reflectType E t = .of g → ∀ v, WF v → has E t v = true → Takes g v

theorem valRT_of {v : Val} {g : GT} (h : valRT v = .of g) : rtype v = some g := by
  unfold valRT at h
  cases hx : rtype v <;> rw [hx] at h <;> cases h
  rfl

theorem fine_val {t : Ty} {w : Val} (hr : reflectType E t = valRT w) (hw : WF w) (hh : ∀ v, has E t v = true → eq w v = true) : Fine E t where
  nn := by rw [hr]; exact valRT_nn w
  wide g hg := by rw [hr] at hg; exact rtype_wide (valRT_of hg)
  takes g hg v hv h := by rw [hr] at hg; exact eq_takes w v g (hh v h) hw hv (valRT_of hg)

theorem fine_const {t : Ty} {g : GT} (hr : reflectType E t = .of g) (hw : Wide g) (h : ∀ v, has E t v = true → Takes g v) : Fine E t where
  nn := by rw [hr]; simp [RT.of]
  wide g' hg := by rw [hr] at hg; cases hg; exact hw
  takes g' hg v hv hh := by rw [hr] at hg; cases hg; exact h v hh

theorem wide_ne {e : GT} (h : Wide e) : e ≠ .int .uint8 := by rintro rfl; cases h

theorem fine_slice {t : Ty} {r : RT} (hr : reflectType E t = sliceOfT r) (hw : ∀ e, r = .of e → Wide e)
    (h : ∀ e, r = .of e → ∀ v, WF v → has E t v = true → ∃ vs, v = .arr vs ∧ ∀ x ∈ vs, Takes e x) : Fine E t where
  nn := by rw [hr]; exact sliceOfT_nn r
  wide g hg := by rw [hr] at hg; obtain ⟨e, he, rfl⟩ := sliceOfT_of hg; trivial
  takes g hg v hv hh := by
    rw [hr] at hg
    obtain ⟨e, he, rfl⟩ := sliceOfT_of hg
    exact .inr ⟨wide_ne (hw e he), h e he v hv hh⟩

theorem fine_map {t : Ty} {r s : RT} (hr : reflectType E t = mapOfT r s)
    (h : ∀ k w, r = .of k → s = .of w → ∀ v, WF v → has E t v = true → ∃ es, v = .map es ∧ ∀ e ∈ es, Takes k e.1 ∧ Takes w e.2) : Fine E t where
  nn := by rw [hr]; exact mapOfT_nn r s
  wide g hg := by rw [hr] at hg; obtain ⟨k, w, -, -, -, rfl⟩ := mapOfT_of hg; trivial
  takes g hg v hv hh := by
    rw [hr] at hg
    obtain ⟨k, w, hk, hw, hc, rfl⟩ := mapOfT_of hg
    exact ⟨hc, h k w hk hw v hv hh⟩

theorem fine_ops {t : Ty} {ts : List Ty} (hr : reflectType E t = commonT none ((reflectTypes E ts).map (·.2))) (hn : ts ≠ [])
    (hf : ∀ u ∈ ts, Fine E u) (h : ∀ v, has E t v = true → ∃ u ∈ ts, has E u v = true) : Fine E t := by
  have he : (reflectTypes E ts).map (·.2) = ts.map (reflectType E) := by rw [reflectTypes_eq, List.map_map]; rfl
  rw [he] at hr
  have hnn : ∀ r ∈ ts.map (reflectType E), r ≠ some none := by
    intro r hr
    obtain ⟨u, hu, rfl⟩ := List.mem_map.1 hr
    exact (hf u hu).nn
  refine ⟨?_, ?_, ?_⟩
  · rw [hr]; exact commonT_nn (by simpa using hn) hnn
  · intro g hg
    rw [hr] at hg
    refine commonT_wide _ none g hg (by simp) ?_
    intro r hr t ht
    obtain ⟨u, hu, rfl⟩ := List.mem_map.1 hr
    exact (hf u hu).wide t ht
  · intro g hg v hv hh
    rw [hr] at hg
    obtain ⟨u, hu, h'⟩ := h v hh
    exact commonT_takes hg hnn ⟨_, List.mem_map_of_mem hu, fun t ht => (hf u hu).takes t ht v hv h'⟩

theorem has_sens {w v : Val} {o : Oid} (h : has E (typeOf o (.sens w)) v = true) : ∃ x, v = .sens x := by
  cases v <;> simp [typeOf, has, hasP] at h
  exact ⟨_, rfl⟩

mutual
theorem fine : ∀ (t : Ty), Closed E t → t.Ok → t.Acyc → Fine E t
  | .any, _, _, _ => fine_const rfl trivial fun v _ => trivial
  | .nilT, _, _, _ => fine_const rfl trivial fun v _ => trivial
  | .not _, _, _, _ => fine_const rfl trivial fun v _ => trivial
  | .boolT, _, _, _ => fine_const rfl trivial fun v h => by cases v <;> simp [has, hasP] at h; exact ⟨_, rfl⟩
  | .intT, _, _, _ => fine_const rfl rfl fun v h => by cases v <;> simp [has, hasP] at h; exact ⟨rfl, _, rfl⟩
  | .intRange .., _, _, _ => fine_const rfl rfl fun v h => by cases v <;> simp [has, hasP] at h; exact ⟨rfl, _, rfl⟩
  | .floatT, _, _, _ => fine_const rfl trivial fun v h => by cases v <;> simp [has, hasP] at h; exact ⟨_, rfl⟩
  | .floatRange .., _, _, _ => fine_const rfl trivial fun v h => by cases v <;> simp [has, hasP] at h; exact ⟨_, rfl⟩
  | .strT, _, _, _ => fine_const rfl trivial fun v h => by cases v <;> simp [has, hasP] at h; exact ⟨_, rfl⟩
  | .sizedStr .., _, _, _ => fine_const rfl trivial fun v h => by cases v <;> simp [has, hasP] at h; exact ⟨_, rfl⟩
  | .ciStr _, _, _, _ => fine_const rfl trivial fun v h => by cases v <;> simp [has, hasP] at h; exact ⟨_, rfl⟩
  | .pattern _, _, _, _ => fine_const rfl trivial fun v h => by cases v <;> simp [has, hasP] at h; exact ⟨_, rfl⟩
  | .bin .., _, _, _ => fine_const rfl trivial fun v h => by cases v <;> simp [has, hasP] at h; exact .inl ⟨rfl, _, rfl⟩
  | .regexpT, _, _, _ => fine_const rfl trivial fun v h => by cases v <;> simp [has, hasP] at h; exact ⟨rfl, _, rfl⟩
  | .timeT, _, _, _ => fine_const rfl trivial fun v h => by cases v <;> simp [has, hasP] at h; exact ⟨_, rfl⟩
  | .arrT, _, _, _ => fine_const rfl trivial fun v h => by
      cases v <;> simp [has, hasP] at h; exact .inr ⟨by simp, _, rfl, fun _ _ => trivial⟩
  | .mapT, _, _, _ => fine_const rfl trivial fun v h => by
      cases v <;> simp [has, hasP] at h; exact ⟨rfl, _, rfl, fun _ _ => ⟨trivial, trivial⟩⟩
  | .sens .., _, _, _ => fine_const rfl trivial fun v h => by cases v <;> simp [has, hasP] at h; rfl
  | .metaT _, _, _, _ => fine_const rfl trivial fun v h => by cases v <;> simp [has, hasP] at h
  | .metaMeta, _, _, _ => fine_const rfl trivial fun v h => by cases v <;> simp [has, hasP] at h
  | .exact w, _, ok, _ => by
      rw [Ty.Ok] at ok
      exact fine_val (by rw [reflectType]) ok.2 fun v h => by simpa [has, hasP] using h
  | .exactD _ w, _, ok, _ => by
      rw [Ty.Ok] at ok
      exact fine_val (by rw [reflectType]) ok.2 fun v h => by simpa [has, hasP] using h
  | .sizedArr _ e _ _, c, ok, ac => by
      rw [Closed] at c; rw [Ty.Ok] at ok; rw [Ty.Acyc] at ac
      have ih := fine e c ok ac.2
      refine fine_slice (r := reflectType E e) (by rw [reflectType]) ih.wide fun g hg v hv h => ?_
      cases v <;> simp only [has, hasP, Bool.false_eq_true, Bool.and_eq_true, List.all_eq_true] at h
      exact ⟨_, rfl, fun x hx => ih.takes g hg x (WF_arr hv x hx) (h.2 x hx)⟩
  | .sizedMap _ a b _ _, c, ok, ac => by
      rw [Closed] at c; rw [Ty.Ok] at ok; rw [Ty.Acyc] at ac
      have iha := fine a c.1 ok.1 ac.2.2.1
      have ihb := fine b c.2 ok.2 ac.2.2.2
      refine fine_map (r := reflectType E a) (s := reflectType E b) (by rw [reflectType]) fun k w hk hw v hv h => ?_
      cases v <;> simp only [has, hasP, Bool.false_eq_true, Bool.and_eq_true, List.all_eq_true] at h
      exact ⟨_, rfl, fun x hx => ⟨iha.takes k hk x.1 (WF_map hv x hx).1 (h.2 x hx).1, ihb.takes w hw x.2 (WF_map hv x hx).2 (h.2 x hx).2⟩⟩
  | .tuple o ts va, c, ok, ac => by
      rw [Closed] at c; rw [Ty.Ok] at ok; rw [Ty.Acyc] at ac
      have ih := fineAll ts c.2 ok ac.2
      by_cases hts : ts = []
      · subst hts
        refine fine_slice (r := .of .iface) (by rw [reflectType]; rfl) (by rintro _ ⟨rfl⟩; trivial) fun g hg v hv h => ?_
        cases hg
        cases v <;> cases va <;> simp [has, hasP] at h
        · exact ⟨_, rfl, fun _ _ => trivial⟩
        · exact ⟨_, rfl, fun _ _ => trivial⟩
      · have hnn : ∀ r ∈ (uniqueRT E [] (reflectTypes E ts)).map (·.2), r ≠ some none := by
          intro r hr
          obtain ⟨u, hu, rfl⟩ := List.mem_map.1 hr
          rcases unique_sub u hu with h | h
          · simp at h
          · rw [reflectTypes_eq] at h
            obtain ⟨t, ht, rfl⟩ := List.mem_map.1 h
            exact (ih t ht).nn
        refine fine_slice (r := commonT none ((uniqueRT E [] (reflectTypes E ts)).map (·.2)))
          (by rw [reflectType, if_neg (by simpa using hts)]) ?_ ?_
        · intro g hg
          refine commonT_wide _ none g hg (by simp) ?_
          intro r hr t ht
          obtain ⟨u, hu, rfl⟩ := List.mem_map.1 hr
          rcases unique_sub u hu with h | h
          · simp at h
          · rw [reflectTypes_eq] at h
            obtain ⟨x, hx, rfl⟩ := List.mem_map.1 h
            exact (ih x hx).wide t ht
        · intro g hg v hv h
          obtain ⟨vs, rfl, hm⟩ : ∃ vs, v = .arr vs ∧ ∀ x ∈ vs, ∃ t ∈ ts, has E t x = true := by
            cases v <;> cases va <;> simp only [has, hasP, Bool.false_eq_true] at h
            · exact ⟨_, rfl, zip_mem h⟩
            · exact ⟨_, rfl, var_mem hts h⟩
          refine ⟨vs, rfl, fun x hx => ?_⟩
          obtain ⟨t, ht, hh⟩ := hm x hx
          have hwx := WF_arr hv x hx
          obtain ⟨y, hy, hty⟩ := unique_has (E := E) (u := []) (t, reflectType E t)
            (by rw [reflectTypes_eq]; exact List.mem_map.2 ⟨t, ht, rfl⟩ : _ ∈ reflectTypes E ts)
          have hy' : y ∈ reflectTypes E ts := by
            rcases unique_sub y hy with h | h
            · simp at h
            · exact h
          rw [reflectTypes_eq] at hy'
          obtain ⟨u, hu, rfl⟩ := List.mem_map.1 hy'
          have hhu : has E u x = true := by
            rcases hty with h | h
            · cases h; exact hh
            · have acy := (Acycs_iff.1 ac.2)
              have := c.1 t ht u hu h x hwx
              rw [instanceOf_has (acy t ht), instanceOf_has (acy u hu)] at this
              rw [← this]; exact hh
          exact commonT_takes hg hnn ⟨_, List.mem_map.2 ⟨_, hy, rfl⟩, fun s hs => (ih u hu).takes s hs x hwx hhu⟩
  | .struct o add fs, c, ok, ac => by
      rw [Closed] at c; rw [Ty.Ok] at ok; rw [Ty.Acyc] at ac
      have ih := fineFields fs c.2.2 ok ac.2
      by_cases hfs : fs = []
      · subst hfs
        refine fine_map (r := .of .iface) (s := .of .iface) (by rw [reflectType]; rfl) fun k w hk hw v hv h => ?_
        cases hk; cases hw
        cases v <;> simp only [has, hasP, Bool.false_eq_true] at h
        exact ⟨_, rfl, fun _ _ => ⟨trivial, trivial⟩⟩
      · have hadd : add = false := by
          cases add with
          | false => rfl
          | true => exact absurd (c.1 rfl) hfs
        subst hadd
        refine fine_map (r := commonT none (fs.map fun f => valRT f.1)) (s := commonT none (reflectFields E fs))
          (by rw [reflectType, if_neg (by simpa using hfs)]) fun k w hk hw v hv h => ?_
        cases v with
        | map es =>
          have hew := WF_map hv
          have hd : Diff es := by rw [WF] at hv; exact hv.2
          have hfw : ∀ f ∈ fs, WF f.1 := fun f hf => (OkFields_iff.1 ok f hf).2.1
          rw [has_struct hfw (fun e he => (hew e he).1) c.2.1 hd] at h
          refine ⟨es, rfl, fun e he => ?_⟩
          have h2 := h.2
          simp only [Bool.false_eq_true, false_or] at h2
          obtain ⟨f, hf, hfe⟩ := List.any_eq_true.1 (h2 e he)
          have hg : mapGet es f.1 = some e.2 := (mapGet_some_iff (fun e he => (hew e he).1) hd (hfw f hf)).2 ⟨e, he, hfe, rfl⟩
          have hh := (h.1 f hf).2 _ hg
          constructor
          · refine commonT_takes hk (by intro r hr; obtain ⟨y, _, rfl⟩ := List.mem_map.1 hr; exact valRT_nn _)
              ⟨valRT f.1, List.mem_map.2 ⟨f, hf, rfl⟩, fun t ht => ?_⟩
            exact eq_takes f.1 e.1 t hfe (hfw f hf) (hew e he).1 (valRT_of ht)
          · rw [reflectFields_eq] at hw
            refine commonT_takes hw ?_ ⟨reflectType E f.2.2, List.mem_map.2 ⟨f, hf, rfl⟩, fun t ht => ?_⟩
            · intro r hr; obtain ⟨y, hy, rfl⟩ := List.mem_map.1 hr; exact (ih y hy).nn
            · exact (ih f hf).takes t ht e.2 (hew e he).2 hh
        | _ => simp [has, hasP] at h
  | .allOf o ts, c, ok, ac => by
      rw [Closed] at c; rw [Ty.Ok] at ok; rw [Ty.Acyc] at ac
      refine fine_ops (by rw [reflectType]) c.1 (fineAll ts c.2 ok ac.2) fun v h => ?_
      rw [has_allOf_eq, List.all_eq_true] at h
      obtain ⟨t, ht⟩ := List.exists_mem_of_ne_nil _ c.1
      exact ⟨t, ht, h t ht⟩
  | .anyOf o ts, c, ok, ac => by
      rw [Closed] at c; rw [Ty.Ok] at ok; rw [Ty.Acyc] at ac
      refine fine_ops (by rw [reflectType]) c.1 (fineAll ts c.2 ok ac.2) fun v h => ?_
      rw [has_anyOf_eq, List.any_eq_true] at h
      exact h
  | .oneOf o ts, c, ok, ac => by
      rw [Closed] at c; rw [Ty.Ok] at ok; rw [Ty.Acyc] at ac
      refine fine_ops (by rw [reflectType]) c.1 (fineAll ts c.2 ok ac.2) fun v h => ?_
      rw [has_oneOf_eq, beq_iff_eq] at h
      have : 0 < ts.countP fun t => has E t v := by omega
      exact List.countP_pos_iff.1 this
  | .allOfVal o vs, c, ok, ac => by
      rw [Closed] at c; rw [Ty.Ok] at ok
      have hnn : ∀ r ∈ vs.map valRT, r ≠ some none := by intro r hr; obtain ⟨y, _, rfl⟩ := List.mem_map.1 hr; exact valRT_nn y
      have hr : reflectType E (.allOfVal o vs) = commonT none (vs.map valRT) := by rw [reflectType]
      refine ⟨?_, ?_, ?_⟩
      · rw [hr]; exact commonT_nn (by simpa using c) hnn
      · intro g hg
        rw [hr] at hg
        refine commonT_wide _ none g hg (by simp) ?_
        intro r hr t ht
        obtain ⟨u, hu, rfl⟩ := List.mem_map.1 hr
        exact rtype_wide (valRT_of ht)
      · intro g hg v hv h
        rw [hr] at hg
        rw [has_allOfVal, List.all_eq_true] at h
        match vs, c with
        | w :: ws, _ =>
          refine commonT_takes hg hnn ⟨valRT w, by simp, fun t ht => ?_⟩
          have h1 := h (typeOf (.part o ws.length) w) (by rw [typesOf]; simp)
          have hw : WF w := (WFs_iff _).1 ok w (by simp)
          by_cases hs : ∃ x, w = .sens x
          · obtain ⟨x, rfl⟩ := hs
            obtain ⟨y, rfl⟩ := has_sens h1
            cases valRT_of ht
            rfl
          · rw [has_typeOf_eq _ (fun x hx => hs ⟨x, hx⟩)] at h1
            exact eq_takes w v t h1 hw hv (valRT_of ht)

theorem fineAll : ∀ (ts : List Ty), ClosedAll E ts → Oks ts → Acycs ts → ∀ t ∈ ts, Fine E t
  | [], _, _, _, t, h => by simp at h
  | t :: ts, c, ok, ac, u, h => by
    rw [ClosedAll] at c; rw [Oks] at ok; rw [Acycs] at ac
    have h1 := fine t c.1 ok.1 ac.1
    have h2 := fineAll ts c.2 ok.2 ac.2
    rcases List.mem_cons.1 h with rfl | h
    · exact h1
    · exact h2 u h

theorem fineFields : ∀ (fs : List (Val × Bool × Ty)), ClosedFields E fs → OkFields fs → AcycFields fs → ∀ f ∈ fs, Fine E f.2.2
  | [], _, _, _, t, h => by simp at h
  | (k, rq, t) :: fs, c, ok, ac, f, h => by
    rw [ClosedFields] at c; rw [OkFields] at ok; rw [AcycFields] at ac
    have h1 := fine t c.1 ok.2.2.1 ac.1
    have h2 := fineFields fs c.2 ok.2.2.2 ac.2
    rcases List.mem_cons.1 h with rfl | h
    · exact h1
    · exact h2 f h
end

end Verif.Reflect
