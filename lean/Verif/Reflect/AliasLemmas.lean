import Verif.Reflect.AliasSpec
/-!
# Lemmas about structs and the storage that they share
-/
set_option autoImplicit false
set_option linter.unusedVariables false
set_option linter.unusedSimpArgs false
namespace Verif.Reflect.Alias
open Function (update)

/-- What is referred to is in use. -/
def Ok (m : St) : FV → Prop
  | .scalar _ => True
  | .slice a => a < m.na
  | .dgo d => d < m.nd

/-- The state is well formed, and the storage of frozen structs is theirs alone. -/
structure Inv (m : St) : Prop where
  obj : ∀ o, o < m.no → (m.objs o).var < m.nv
  ptr : ∀ v, m.ptrs v = true → v < m.nv
  sl : ∀ a, m.slices a = true → a < m.na
  fv : ∀ v, v < m.nv → ∀ f ∈ m.vars v, Ok m f
  priv : ∀ o, o < m.no → (m.objs o).frozen = true → m.ptrs (m.objs o).var = false
  own : ∀ o, o < m.no → (m.objs o).frozen = true → ∀ p, p < m.no → (m.objs p).var = (m.objs o).var → p = o
  frz : ∀ o, o < m.no → (m.objs o).frozen = true → ∀ d, FV.dgo d ∈ m.fields o → (m.dgos d).2 = true

theorem inv_init : Inv .init := by
  constructor <;> simp [St.init]

/-- `m'` has more slices and arrays than `m`, nothing else is different. -/
structure Grow (m m' : St) : Prop where
  vars : m'.vars = m.vars
  nv : m'.nv = m.nv
  objs : m'.objs = m.objs
  no : m'.no = m.no
  ptrs : m'.ptrs = m.ptrs
  slices : m'.slices = m.slices
  na : m.na ≤ m'.na
  nd : m.nd ≤ m'.nd
  arrs : ∀ a, a < m.na → m'.arrs a = m.arrs a
  dgos : ∀ d, d < m.nd → m'.dgos d = m.dgos d

theorem Grow.refl (m : St) : Grow m m := ⟨rfl, rfl, rfl, rfl, rfl, rfl, Nat.le_refl _, Nat.le_refl _, fun _ _ => rfl, fun _ _ => rfl⟩

theorem Grow.trans {a b c : St} (h : Grow a b) (h' : Grow b c) : Grow a c where
  vars := h'.vars.trans h.vars
  nv := h'.nv.trans h.nv
  objs := h'.objs.trans h.objs
  no := h'.no.trans h.no
  ptrs := h'.ptrs.trans h.ptrs
  slices := h'.slices.trans h.slices
  na := Nat.le_trans h.na h'.na
  nd := Nat.le_trans h.nd h'.nd
  arrs := fun x hx => (h'.arrs x (Nat.lt_of_lt_of_le hx h.na)).trans (h.arrs x hx)
  dgos := fun x hx => (h'.dgos x (Nat.lt_of_lt_of_le hx h.nd)).trans (h.dgos x hx)

theorem grow_newArr (m : St) (xs : List Int) : Grow m (m.newArr xs) := by
  constructor <;> simp [St.newArr, Function.update_apply]
  intro a h1 h2; omega

theorem grow_newDgo (m : St) (xs : List Int) (b : Bool) : Grow m (m.newDgo xs b) := by
  constructor <;> simp [St.newDgo, Function.update_apply]
  intro a h1 h2; omega

theorem Ok.mono {m m' : St} (h : Grow m m') {f : FV} (hf : Ok m f) : Ok m' f := by
  cases f with
  | scalar => trivial
  | slice a => exact Nat.lt_of_lt_of_le hf h.na
  | dgo d => exact Nat.lt_of_lt_of_le hf h.nd

theorem look_grow {m m' : St} (h : Grow m m') {f : FV} (hf : Ok m f) : look m' f = look m f := by
  cases f with
  | scalar => rfl
  | slice a => rw [look, look, h.arrs a hf]
  | dgo d => rw [look, look, h.dgos d hf]

theorem Inv.grow {m m' : St} (I : Inv m) (h : Grow m m') : Inv m' where
  obj := by rw [h.no, h.objs, h.nv]; exact I.obj
  ptr := by rw [h.ptrs, h.nv]; exact I.ptr
  sl := by rw [h.slices]; exact fun a ha => Nat.lt_of_lt_of_le (I.sl a ha) h.na
  fv := by rw [h.vars, h.nv]; exact fun v hv f hf => (I.fv v hv f hf).mono h
  priv := by rw [h.no, h.objs, h.ptrs]; exact I.priv
  own := by rw [h.no, h.objs]; exact I.own
  frz := by
    intro o ho hf d hd
    rw [h.no] at ho
    rw [h.objs] at hf
    rw [St.fields, h.vars, h.objs] at hd
    rw [h.dgos d (I.fv _ (I.obj o ho) _ hd)]
    exact I.frz o ho hf d hd

/-! ## The loops -/

theorem frozenFields_spec : ∀ (fs : List FV) (m : St), (∀ f ∈ fs, Ok m f) →
    let r := frozenFields m fs
    Grow m r.1 ∧ (∀ f ∈ r.2, Ok r.1 f) ∧ (∀ d, FV.dgo d ∈ r.2 → (r.1.dgos d).2 = true) ∧ r.2.map (look r.1) = fs.map (look m)
  | [], m, _ => ⟨.refl m, by simp [frozenFields], by simp [frozenFields], rfl⟩
  | .scalar x :: fs, m, h => by
    obtain ⟨a, b, c, d⟩ := frozenFields_spec fs m fun f hf => h f (List.mem_cons_of_mem _ hf)
    simp only [frozenFields]
    refine ⟨a, ?_, ?_, ?_⟩
    · intro f hf
      rcases List.mem_cons.1 hf with e | e
      · subst e; trivial
      · exact b f e
    · intro e he
      rcases List.mem_cons.1 he with e' | e'
      · cases e'
      · exact c e e'
    · simp only [List.map_cons, d]; rfl
  | .slice y :: fs, m, h => by
    obtain ⟨a, b, c, d⟩ := frozenFields_spec fs m fun f hf => h f (List.mem_cons_of_mem _ hf)
    have hy := h _ List.mem_cons_self
    simp only [frozenFields]
    refine ⟨a, ?_, ?_, ?_⟩
    · intro f hf
      rcases List.mem_cons.1 hf with e | e
      · subst e; exact hy.mono a
      · exact b f e
    · intro e he
      rcases List.mem_cons.1 he with e' | e'
      · cases e'
      · exact c e e'
    · simp only [List.map_cons, d, look_grow a hy]
  | .dgo y :: fs, m, h => by
    have hy := h _ List.mem_cons_self
    cases hb : (m.dgos y).2 with
    | true =>
      obtain ⟨a, b, c, d⟩ := frozenFields_spec fs m fun f hf => h f (List.mem_cons_of_mem _ hf)
      simp only [frozenFields, hb, if_true]
      refine ⟨a, ?_, ?_, ?_⟩
      · intro f hf
        rcases List.mem_cons.1 hf with e | e
        · subst e; exact hy.mono a
        · exact b f e
      · intro e he
        rcases List.mem_cons.1 he with e' | e'
        · cases e'; rw [a.dgos _ hy]; exact hb
        · exact c e e'
      · simp only [List.map_cons, d, look_grow a hy]
    | false =>
      have g := grow_newDgo m (m.dgos y).1 true
      obtain ⟨a, b, c, d⟩ := frozenFields_spec fs (m.newDgo (m.dgos y).1 true) fun f hf => (h f (List.mem_cons_of_mem _ hf)).mono g
      simp only [frozenFields, hb, Bool.false_eq_true, if_false]
      have hn : Ok (m.newDgo (m.dgos y).1 true) (.dgo m.nd) := by simp [Ok, St.newDgo]
      have hc : (m.newDgo (m.dgos y).1 true).dgos m.nd = ((m.dgos y).1, true) := by simp [St.newDgo]
      refine ⟨g.trans a, ?_, ?_, ?_⟩
      · intro f hf
        rcases List.mem_cons.1 hf with e | e
        · subst e; exact hn.mono a
        · exact b f e
      · intro e he
        rcases List.mem_cons.1 he with e' | e'
        · cases e'; rw [a.dgos _ hn, hc]
        · exact c e e'
      · simp only [List.map_cons, d, look_grow a hn]
        congr 1
        · simp only [look, hc]
        · apply List.map_congr_left
          intro f hf
          exact look_grow g (h f (List.mem_cons_of_mem _ hf))

theorem thawedFields_spec : ∀ (fs : List FV) (m : St), (∀ f ∈ fs, Ok m f) →
    let r := thawedFields m fs
    Grow m r.1 ∧ (∀ f ∈ r.2, Ok r.1 f) ∧ (∀ a, FV.slice a ∈ r.2 → m.na ≤ a) ∧ (∀ d, FV.dgo d ∈ r.2 → m.nd ≤ d) ∧
      r.2.map (look r.1) = fs.map (look m)
  | [], m, _ => ⟨.refl m, by simp [thawedFields], by simp [thawedFields], by simp [thawedFields], rfl⟩
  | .scalar x :: fs, m, h => by
    obtain ⟨a, b, c, c', d⟩ := thawedFields_spec fs m fun f hf => h f (List.mem_cons_of_mem _ hf)
    simp only [thawedFields]
    refine ⟨a, ?_, ?_, ?_, ?_⟩
    · intro f hf
      rcases List.mem_cons.1 hf with e | e
      · subst e; trivial
      · exact b f e
    · intro e he
      rcases List.mem_cons.1 he with e' | e'
      · cases e'
      · exact c e e'
    · intro e he
      rcases List.mem_cons.1 he with e' | e'
      · cases e'
      · exact c' e e'
    · simp only [List.map_cons, d]; rfl
  | .slice y :: fs, m, h => by
    have hy := h _ List.mem_cons_self
    have g := grow_newArr m (m.arrs y)
    obtain ⟨a, b, c, c', d⟩ := thawedFields_spec fs (m.newArr (m.arrs y)) fun f hf => (h f (List.mem_cons_of_mem _ hf)).mono g
    have hn : Ok (m.newArr (m.arrs y)) (.slice m.na) := by simp [Ok, St.newArr]
    have hc : (m.newArr (m.arrs y)).arrs m.na = m.arrs y := by simp [St.newArr]
    simp only [thawedFields]
    refine ⟨g.trans a, ?_, ?_, ?_, ?_⟩
    · intro f hf
      rcases List.mem_cons.1 hf with e | e
      · subst e; exact hn.mono a
      · exact b f e
    · intro e he
      rcases List.mem_cons.1 he with e' | e'
      · cases e'; exact Nat.le_refl _
      · exact Nat.le_trans g.na (c e e')
    · intro e he
      rcases List.mem_cons.1 he with e' | e'
      · cases e'
      · exact Nat.le_trans g.nd (c' e e')
    · simp only [List.map_cons, d, look_grow a hn]
      congr 1
      · simp only [look, hc]
      · apply List.map_congr_left
        intro f hf
        exact look_grow g (h f (List.mem_cons_of_mem _ hf))
  | .dgo y :: fs, m, h => by
    have hy := h _ List.mem_cons_self
    have g := grow_newDgo m (m.dgos y).1 false
    obtain ⟨a, b, c, c', d⟩ := thawedFields_spec fs (m.newDgo (m.dgos y).1 false) fun f hf => (h f (List.mem_cons_of_mem _ hf)).mono g
    have hn : Ok (m.newDgo (m.dgos y).1 false) (.dgo m.nd) := by simp [Ok, St.newDgo]
    have hc : (m.newDgo (m.dgos y).1 false).dgos m.nd = ((m.dgos y).1, false) := by simp [St.newDgo]
    simp only [thawedFields]
    refine ⟨g.trans a, ?_, ?_, ?_, ?_⟩
    · intro f hf
      rcases List.mem_cons.1 hf with e | e
      · subst e; exact hn.mono a
      · exact b f e
    · intro e he
      rcases List.mem_cons.1 he with e' | e'
      · cases e'
      · exact Nat.le_trans g.na (c e e')
    · intro e he
      rcases List.mem_cons.1 he with e' | e'
      · cases e'; exact Nat.le_refl _
      · exact Nat.le_trans g.nd (c' e e')
    · simp only [List.map_cons, d, look_grow a hn]
      congr 1
      · simp only [look, hc]
      · apply List.map_congr_left
        intro f hf
        exact look_grow g (h f (List.mem_cons_of_mem _ hf))

/-- `m'` has more frozen arrays than `m`, nothing else is different. -/
structure Harden (m m' : St) : Prop where
  vars : m'.vars = m.vars
  nv : m'.nv = m.nv
  objs : m'.objs = m.objs
  no : m'.no = m.no
  ptrs : m'.ptrs = m.ptrs
  slices : m'.slices = m.slices
  na : m'.na = m.na
  nd : m'.nd = m.nd
  arrs : m'.arrs = m.arrs
  elems : ∀ d, (m'.dgos d).1 = (m.dgos d).1
  frozen : ∀ d, (m.dgos d).2 = true → (m'.dgos d).2 = true

theorem freezeFields_spec : ∀ (fs : List FV) (m : St),
    Harden m (freezeFields m fs) ∧ ∀ d, FV.dgo d ∈ fs → ((freezeFields m fs).dgos d).2 = true
  | [], m => ⟨⟨rfl, rfl, rfl, rfl, rfl, rfl, rfl, rfl, rfl, fun _ => rfl, fun _ h => h⟩, by simp⟩
  | .scalar x :: fs, m => by
    obtain ⟨a, b⟩ := freezeFields_spec fs m
    exact ⟨a, fun d hd => b d (by simpa using hd)⟩
  | .slice x :: fs, m => by
    obtain ⟨a, b⟩ := freezeFields_spec fs m
    exact ⟨a, fun d hd => b d (by simpa using hd)⟩
  | .dgo x :: fs, m => by
    obtain ⟨a, b⟩ := freezeFields_spec fs { m with dgos := update m.dgos x ((m.dgos x).1, true) }
    rw [freezeFields]
    refine ⟨⟨a.vars, a.nv, a.objs, a.no, a.ptrs, a.slices, a.na, a.nd, a.arrs, ?_, ?_⟩, ?_⟩
    · intro d
      rw [a.elems]
      simp only [Function.update_apply]
      split <;> simp_all
    · intro d hd
      apply a.frozen
      simp only [Function.update_apply]
      split <;> simp_all
    · intro d hd
      rcases List.mem_cons.1 hd with e | e
      · cases e
        apply a.frozen
        simp
      · exact b d e

/-! ## What happens to frozen structs -/

/-- Frozen structs are the same, but for elements of slices in `W`. -/
structure Kept (W : Nat → Prop) (m m' : St) : Prop where
  no : m.no ≤ m'.no
  na : m.na ≤ m'.na
  nd : m.nd ≤ m'.nd
  objs : ∀ o, o < m.no → (m.objs o).frozen = true → m'.objs o = m.objs o
  vars : ∀ o, o < m.no → (m.objs o).frozen = true → m'.vars (m.objs o).var = m.vars (m.objs o).var
  dgos : ∀ d, d < m.nd → (m.dgos d).2 = true → m'.dgos d = m.dgos d
  arrs : ∀ a, a < m.na → ¬W a → m'.arrs a = m.arrs a

theorem Kept.refl (W : Nat → Prop) (m : St) : Kept W m m :=
  ⟨Nat.le_refl _, Nat.le_refl _, Nat.le_refl _, fun _ _ _ => rfl, fun _ _ _ => rfl, fun _ _ _ => rfl, fun _ _ _ => rfl⟩

theorem Kept.trans {W : Nat → Prop} {a b c : St} (h : Kept W a b) (h' : Kept W b c) : Kept W a c where
  no := Nat.le_trans h.no h'.no
  na := Nat.le_trans h.na h'.na
  nd := Nat.le_trans h.nd h'.nd
  objs := fun o ho hf => by
    have := h.objs o ho hf
    rw [h'.objs o (Nat.lt_of_lt_of_le ho h.no) (by rw [this]; exact hf), this]
  vars := fun o ho hf => by
    have e := h.objs o ho hf
    have := h'.vars o (Nat.lt_of_lt_of_le ho h.no) (by rw [e]; exact hf)
    rw [e] at this
    rw [this, h.vars o ho hf]
  dgos := fun d hd hf => by
    have := h.dgos d hd hf
    rw [h'.dgos d (Nat.lt_of_lt_of_le hd h.nd) (by rw [this]; exact hf), this]
  arrs := fun x hx hw => (h'.arrs x (Nat.lt_of_lt_of_le hx h.na) hw).trans (h.arrs x hx hw)

theorem Grow.kept {m m' : St} (h : Grow m m') (W : Nat → Prop) : Kept W m m' :=
  ⟨Nat.le_of_eq h.no.symm, h.na, h.nd, fun o _ _ => by rw [h.objs], fun o _ _ => by rw [h.vars], fun d hd _ => h.dgos d hd, fun a ha _ => h.arrs a ha⟩

/-- What a step does -/
def Fine (W : Nat → Prop) (m m' : St) : Prop := Inv m' ∧ Kept W m m'

theorem Fine.refl {W : Nat → Prop} {m : St} (I : Inv m) : Fine W m m := ⟨I, .refl W m⟩

theorem Fine.trans {W : Nat → Prop} {a b c : St} (h : Fine W a b) (h' : Fine W b c) : Fine W a c := ⟨h'.1, h.2.trans h'.2⟩

theorem fine_grow {W : Nat → Prop} {m m' : St} (I : Inv m) (h : Grow m m') : Fine W m m' := ⟨I.grow h, h.kept W⟩

/-- The variable is not that of a frozen struct. -/
def Loose (m : St) (v : Nat) : Prop := ∀ o, o < m.no → (m.objs o).frozen = true → (m.objs o).var ≠ v

theorem loose_of_ptr {m : St} (I : Inv m) {v : Nat} (h : m.ptrs v = true) : Loose m v := by
  rintro o ho hf rfl
  rw [I.priv o ho hf] at h
  cases h

theorem loose_of_obj {m : St} (I : Inv m) {o : Nat} (ho : o < m.no) (h : (m.objs o).frozen = false) : Loose m (m.objs o).var := by
  intro p hp hf e
  have := I.own p hp hf o ho e.symm
  subst this
  rw [hf] at h
  cases h

theorem loose_new {m : St} (I : Inv m) : Loose m m.nv := fun o ho _ e => by have := I.obj o ho; omega

theorem fine_setVar {W : Nat → Prop} {m : St} (I : Inv m) {v : Nat} (hv : v < m.nv) (hl : Loose m v) {fs : List FV} (hfs : ∀ f ∈ fs, Ok m f) :
    Fine W m (m.setVar v fs) := by
  have same : ∀ o, o < m.no → (m.objs o).frozen = true → (m.setVar v fs).vars (m.objs o).var = m.vars (m.objs o).var := by
    intro o ho hf
    simp only [St.setVar, Function.update_apply]
    rw [if_neg (hl o ho hf)]
  refine ⟨⟨I.obj, I.ptr, I.sl, ?_, I.priv, I.own, ?_⟩, ⟨Nat.le_refl _, Nat.le_refl _, Nat.le_refl _, fun _ _ _ => rfl, same, fun _ _ _ => rfl, fun _ _ _ => rfl⟩⟩
  · intro w hw f hf
    simp only [St.setVar, Function.update_apply] at hf
    split at hf
    · exact hfs f hf
    · exact I.fv w hw f hf
  · intro o ho hf d hd
    apply I.frz o ho hf d
    rw [St.fields] at hd ⊢
    rw [← same o ho hf]
    exact hd

theorem fine_newVar {W : Nat → Prop} {m : St} (I : Inv m) {fs : List FV} (hfs : ∀ f ∈ fs, Ok m f) : Fine W m (m.newVar fs) := by
  have same : ∀ v, v < m.nv → (m.newVar fs).vars v = m.vars v := by
    intro v hv
    simp only [St.newVar, Function.update_apply]
    rw [if_neg (by omega)]
  refine ⟨⟨?_, ?_, I.sl, ?_, I.priv, I.own, ?_⟩, ⟨Nat.le_refl _, Nat.le_refl _, Nat.le_refl _, fun _ _ _ => rfl, fun o ho _ => same _ (I.obj o ho),
    fun _ _ _ => rfl, fun _ _ _ => rfl⟩⟩
  · intro o ho; exact Nat.lt_succ_of_lt (I.obj o ho)
  · intro v hv; exact Nat.lt_succ_of_lt (I.ptr v hv)
  · intro v hv f hf
    by_cases h : v = m.nv
    · subst h
      simp only [St.newVar, Function.update_self] at hf
      exact hfs f hf
    · have : v < m.nv := by simp only [St.newVar] at hv; omega
      rw [same v this] at hf
      exact I.fv v this f hf
  · intro o ho hf d hd
    apply I.frz o ho hf d
    rw [St.fields] at hd ⊢
    rw [← same _ (I.obj o ho)]
    exact hd

theorem fine_newObj {W : Nat → Prop} {m : St} (I : Inv m) {v : Nat} {a : Bool} (hv : v < m.nv) (hl : Loose m v) : Fine W m (m.newObj ⟨v, false, a⟩) := by
  have same : ∀ o, o < m.no → (m.newObj ⟨v, false, a⟩).objs o = m.objs o := by
    intro o ho
    simp only [St.newObj, Function.update_apply]
    rw [if_neg (by omega)]
  have new : (m.newObj ⟨v, false, a⟩).objs m.no = ⟨v, false, a⟩ := by simp [St.newObj]
  have cs : ∀ o, o < (m.newObj ⟨v, false, a⟩).no → o < m.no ∨ o = m.no := by
    intro o ho; simp only [St.newObj] at ho; omega
  refine ⟨⟨?_, I.ptr, I.sl, I.fv, ?_, ?_, ?_⟩, ⟨Nat.le_succ _, Nat.le_refl _, Nat.le_refl _, fun o ho _ => same o ho, fun _ _ _ => rfl,
    fun _ _ _ => rfl, fun _ _ _ => rfl⟩⟩
  · intro o ho
    rcases cs o ho with h | rfl
    · rw [same o h]; exact I.obj o h
    · rw [new]; exact hv
  · intro o ho hf
    rcases cs o ho with h | rfl
    · rw [same o h] at hf ⊢; exact I.priv o h hf
    · rw [new] at hf; cases hf
  · intro o ho hf p hp e
    rcases cs o ho with h | rfl
    · rw [same o h] at hf e
      rcases cs p hp with h' | rfl
      · rw [same p h'] at e; exact I.own o h hf p h' e
      · rw [new] at e; exact absurd e.symm (hl o h hf)
    · rw [new] at hf; cases hf
  · intro o ho hf d hd
    rcases cs o ho with h | rfl
    · rw [St.fields, same o h] at hd
      rw [same o h] at hf
      exact I.frz o h hf d hd
    · rw [new] at hf; cases hf

theorem fine_newFrozen {W : Nat → Prop} {m : St} (I : Inv m) {v : Nat} {a : Bool} (hv : v < m.nv) (hl : ∀ o, o < m.no → (m.objs o).var ≠ v)
    (hp : m.ptrs v = false) (hd : ∀ d, FV.dgo d ∈ m.vars v → (m.dgos d).2 = true) : Fine W m (m.newObj ⟨v, true, a⟩) := by
  have same : ∀ o, o < m.no → (m.newObj ⟨v, true, a⟩).objs o = m.objs o := by
    intro o ho
    simp only [St.newObj, Function.update_apply]
    rw [if_neg (by omega)]
  have new : (m.newObj ⟨v, true, a⟩).objs m.no = ⟨v, true, a⟩ := by simp [St.newObj]
  have cs : ∀ o, o < (m.newObj ⟨v, true, a⟩).no → o < m.no ∨ o = m.no := by
    intro o ho; simp only [St.newObj] at ho; omega
  refine ⟨⟨?_, I.ptr, I.sl, I.fv, ?_, ?_, ?_⟩, ⟨Nat.le_succ _, Nat.le_refl _, Nat.le_refl _, fun o ho _ => same o ho, fun _ _ _ => rfl,
    fun _ _ _ => rfl, fun _ _ _ => rfl⟩⟩
  · intro o ho
    rcases cs o ho with h | rfl
    · rw [same o h]; exact I.obj o h
    · rw [new]; exact hv
  · intro o ho hf
    rcases cs o ho with h | rfl
    · rw [same o h] at hf ⊢; exact I.priv o h hf
    · rw [new]; exact hp
  · intro o ho hf p hp e
    rcases cs o ho with h | rfl
    · rw [same o h] at hf e
      rcases cs p hp with h' | rfl
      · rw [same p h'] at e; exact I.own o h hf p h' e
      · rw [new] at e; exact absurd e.symm (hl o h)
    · rw [new] at e
      rcases cs p hp with h' | rfl
      · rw [same p h'] at e; exact absurd e (hl p h')
      · rfl
  · intro o ho hf d hd'
    rcases cs o ho with h | rfl
    · rw [St.fields, same o h] at hd'
      rw [same o h] at hf
      exact I.frz o h hf d hd'
    · rw [St.fields, new] at hd'
      exact hd d hd'

theorem fine_expose {W : Nat → Prop} {m : St} (I : Inv m) {v : Nat} (hv : v < m.nv) (hl : Loose m v) : Fine W m (m.expose v) := by
  refine ⟨⟨I.obj, ?_, I.sl, I.fv, ?_, I.own, I.frz⟩, ⟨Nat.le_refl _, Nat.le_refl _, Nat.le_refl _, fun _ _ _ => rfl, fun _ _ _ => rfl, fun _ _ _ => rfl,
    fun _ _ _ => rfl⟩⟩
  · intro w hw
    simp only [St.expose, Function.update_apply] at hw
    split at hw
    · rename_i h; rw [h]; exact hv
    · exact I.ptr w hw
  · intro o ho hf
    simp only [St.expose, Function.update_apply]
    rw [if_neg (hl o ho hf)]
    exact I.priv o ho hf

theorem fine_slice {W : Nat → Prop} {m : St} (I : Inv m) {a : Nat} (ha : a < m.na) : Fine W m { m with slices := update m.slices a true } := by
  refine ⟨⟨I.obj, I.ptr, ?_, I.fv, I.priv, I.own, I.frz⟩, ⟨Nat.le_refl _, Nat.le_refl _, Nat.le_refl _, fun _ _ _ => rfl, fun _ _ _ => rfl, fun _ _ _ => rfl,
    fun _ _ _ => rfl⟩⟩
  intro x hx
  simp only [Function.update_apply] at hx
  split at hx
  · rename_i h; rw [h]; exact ha
  · exact I.sl x hx

theorem fine_arr {W : Nat → Prop} {m : St} (I : Inv m) {a : Nat} (ha : W a) (xs : List Int) : Fine W m { m with arrs := update m.arrs a xs } := by
  refine ⟨⟨I.obj, I.ptr, I.sl, I.fv, I.priv, I.own, I.frz⟩, ⟨Nat.le_refl _, Nat.le_refl _, Nat.le_refl _, fun _ _ _ => rfl, fun _ _ _ => rfl, fun _ _ _ => rfl, ?_⟩⟩
  intro x _ hx
  simp only [Function.update_apply]
  split
  · rename_i h; rw [h] at hx; exact absurd ha hx
  · rfl

theorem fine_dgo {W : Nat → Prop} {m : St} (I : Inv m) {d : Nat} (y : List Int × Bool) (h : (m.dgos d).2 = true → y = m.dgos d) :
    Fine W m { m with dgos := update m.dgos d y } := by
  have keep : ∀ x, (m.dgos x).2 = true → update m.dgos d y x = m.dgos x := by
    intro x hx
    simp only [Function.update_apply]
    split
    · rename_i e; rw [e] at hx ⊢; exact h hx
    · rfl
  refine ⟨⟨I.obj, I.ptr, I.sl, I.fv, I.priv, I.own, ?_⟩, ⟨Nat.le_refl _, Nat.le_refl _, Nat.le_refl _, fun _ _ _ => rfl, fun _ _ _ => rfl, fun x _ hx => keep x hx,
    fun _ _ _ => rfl⟩⟩
  intro o ho hf x hx
  have := I.frz o ho hf x hx
  simp only
  rw [keep x this]
  exact this

theorem fine_freeze {W : Nat → Prop} {m : St} (I : Inv m) {o : Nat} (ho : o < m.no) (hf : (m.objs o).frozen = false) : Fine W m (step m (.freeze o)) := by
  simp only [step, ho, hf, decide_true, Bool.not_false, Bool.and_self, if_true]
  have I1 := (fine_newVar (W := W) I (I.fv _ (I.obj o ho))).1
  generalize hm : ({ (m.newVar (m.fields o)) with objs := update (m.newVar (m.fields o)).objs o ⟨m.nv, true, false⟩ } : St) = m1
  obtain ⟨H, hd⟩ := freezeFields_spec (m.fields o) m1
  have hobjs : m1.objs = update m.objs o ⟨m.nv, true, false⟩ := by rw [← hm]; rfl
  have hno : m1.no = m.no := by rw [← hm]; rfl
  have hnv : m1.nv = m.nv + 1 := by rw [← hm]; rfl
  have hvars : m1.vars = update m.vars m.nv (m.fields o) := by rw [← hm]; rfl
  have hother : ∀ p, p ≠ o → m1.objs p = m.objs p := by
    intro p hp; rw [hobjs, Function.update_apply, if_neg hp]
  have hself : m1.objs o = ⟨m.nv, true, false⟩ := by rw [hobjs, Function.update_self]
  have hold : ∀ v, v < m.nv → m1.vars v = m.vars v := by
    intro v hv; rw [hvars, Function.update_apply, if_neg (by omega)]
  have hnew : m1.vars m.nv = m.fields o := by rw [hvars, Function.update_self]
  have hptr : m1.ptrs = m.ptrs := by rw [← hm]; rfl
  have hpn : m.ptrs m.nv = false := by
    cases hb : m.ptrs m.nv with
    | false => rfl
    | true => have := I.ptr _ hb; omega
  have hdg : m1.dgos = m.dgos := by rw [← hm]; rfl
  have hna : m1.na = m.na := by rw [← hm]; rfl
  have hnd : m1.nd = m.nd := by rw [← hm]; rfl
  have har : m1.arrs = m.arrs := by rw [← hm]; rfl
  have hsl : m1.slices = m.slices := by rw [← hm]; rfl
  have ok : ∀ f, Ok m f → Ok (freezeFields m1 (m.fields o)) f := by
    intro f
    cases f with
    | scalar => exact fun _ => trivial
    | slice a => simp only [Ok]; rw [H.na, hna]; exact id
    | dgo d => simp only [Ok]; rw [H.nd, hnd]; exact id
  constructor
  · constructor
    · intro p hp
      rw [H.no, hno] at hp
      rw [H.objs, H.nv, hnv]
      by_cases e : p = o
      · rw [e, hself]; exact Nat.lt_succ_self _
      · rw [hother p e]; exact Nat.lt_succ_of_lt (I.obj p hp)
    · rw [H.ptrs, hptr, H.nv, hnv]; intro v hv; exact Nat.lt_succ_of_lt (I.ptr v hv)
    · rw [H.slices, hsl, H.na, hna]; exact I.sl
    · rw [H.nv, hnv, H.vars]
      intro v hv f hf'
      by_cases e : v = m.nv
      · rw [e, hnew] at hf'; exact ok f (I.fv _ (I.obj o ho) f hf')
      · have : v < m.nv := by omega
        rw [hold v this] at hf'; exact ok f (I.fv v this f hf')
    · rw [H.no, hno, H.objs, H.ptrs, hptr]
      intro p hp hpf
      by_cases e : p = o
      · rw [e, hself]; exact hpn
      · rw [hother p e] at hpf ⊢; exact I.priv p hp hpf
    · rw [H.no, hno, H.objs]
      intro p hp hpf q hq e
      by_cases e1 : p = o
      · rw [e1, hself] at e
        by_cases e2 : q = o
        · rw [e1, e2]
        · rw [hother q e2] at e
          have := I.obj q hq
          simp only at e; omega
      · rw [hother p e1] at hpf e
        by_cases e2 : q = o
        · rw [e2, hself] at e
          have := I.obj p hp
          simp only at e; omega
        · rw [hother q e2] at e
          exact I.own p hp hpf q hq e
    · rw [H.no, hno, H.objs]
      intro p hp hpf d hd'
      rw [St.fields, H.objs, H.vars] at hd'
      by_cases e1 : p = o
      · rw [e1, hself] at hd'
        simp only [hnew] at hd'
        exact hd d hd'
      · rw [hother p e1] at hpf hd'
        rw [hold _ (I.obj p hp)] at hd'
        apply H.frozen
        rw [hdg]
        exact I.frz p hp hpf d hd'
  · refine ⟨by rw [H.no, hno]; exact Nat.le_refl _, by rw [H.na, hna]; exact Nat.le_refl _, by rw [H.nd, hnd]; exact Nat.le_refl _, ?_, ?_, ?_, ?_⟩
    · intro p hp hpf
      rw [H.objs]
      by_cases e : p = o
      · rw [e, hf] at hpf; cases hpf
      · exact hother p e
    · intro p hp hpf
      rw [H.vars, hold _ (I.obj p hp)]
    · intro d _ hdf
      have h1 := H.elems d
      have h2 := H.frozen d (by rw [hdg]; exact hdf)
      rw [hdg] at h1
      exact Prod.ext h1 (by rw [h2, hdf])
    · intro a _ _
      rw [H.arrs, har]

theorem fine_frozenCopy {W : Nat → Prop} {m : St} (I : Inv m) {o : Nat} (ho : o < m.no) :
    Fine W m (((frozenFields m (m.fields o)).1.newVar (frozenFields m (m.fields o)).2).newObj ⟨(frozenFields m (m.fields o)).1.nv, true, true⟩) := by
  obtain ⟨g, b, c, d⟩ := frozenFields_spec (m.fields o) m (I.fv _ (I.obj o ho))
  generalize frozenFields m (m.fields o) = r at *
  have I1 := I.grow g
  have F2 := fine_newVar (W := W) I1 b
  refine ((fine_grow I g).trans F2).trans (fine_newFrozen F2.1 (Nat.lt_succ_self _) ?_ ?_ ?_)
  · intro p hp
    have : (r.1.objs p).var < r.1.nv := I1.obj p hp
    change (r.1.objs p).var ≠ _
    omega
  · change r.1.ptrs r.1.nv = false
    cases hb : r.1.ptrs r.1.nv with
    | false => rfl
    | true => have := I1.ptr _ hb; omega
  · intro x hx
    simp only [St.newVar, Function.update_self] at hx
    exact c x hx

theorem has_ok {m : St} (I : Inv m) {f : FV} (h : m.has f = true) : Ok m f := by
  cases f with
  | scalar => trivial
  | slice a => exact I.sl a h
  | dgo d => exact of_decide_eq_true (p := d < m.nd) h

theorem mem_set {α : Type} {l : List α} {i : Nat} {x y : α} (h : y ∈ l.set i x) : y = x ∨ y ∈ l := by
  rcases List.mem_or_eq_of_mem_set h with h | h
  · exact .inr h
  · exact .inl h

theorem fine_step {m : St} (I : Inv m) (op : Op) (hs : Safe m op) : Fine (Writes op) m (step m op) := by
  cases op with
  | goSlice xs =>
    simp only [step]
    refine (fine_grow I (grow_newArr m xs)).trans (fine_slice (I.grow (grow_newArr m xs)) ?_)
    simp [St.newArr]
  | goVar fs =>
    simp only [step]
    split
    · rename_i h
      have F := fine_newVar (W := Writes (.goVar fs)) I (fs := fs) fun f hf => has_ok I (List.all_eq_true.1 h f hf)
      refine F.trans (fine_expose F.1 (Nat.lt_succ_self _) ?_)
      intro o ho hf
      exact loose_new I o ho hf
    · exact .refl I
  | goSet v i f =>
    simp only [step]
    split
    · rename_i h
      rw [Bool.and_eq_true] at h
      refine fine_setVar I (I.ptr v h.1) (loose_of_ptr I h.1) ?_
      intro x hx
      rcases mem_set hx with rfl | hx
      · exact has_ok I h.2
      · exact I.fv v (I.ptr v h.1) x hx
    · exact .refl I
  | goRead v i =>
    simp only [step]
    split
    · rename_i a ha
      split
      · rename_i hp
        exact fine_slice I (I.fv v (I.ptr v hp) _ (List.mem_of_getElem? ha))
      · exact .refl I
    · exact .refl I
  | goWrite a i x =>
    simp only [step]
    split
    · exact fine_arr I (show Writes (.goWrite a i x) a from rfl) _
    · exact .refl I
  | dgoNew xs => exact fine_grow I (grow_newDgo m xs false)
  | dgoSet d i x =>
    simp only [step]
    split
    · exact .refl I
    · rename_i h
      refine fine_dgo I _ ?_
      intro hd
      rw [hd] at h; simp at h
  | dgoFreeze d =>
    simp only [step]
    split
    · exact fine_dgo I _ fun hd => Prod.ext rfl hd.symm
    · exact .refl I
  | ofPtr v =>
    simp only [step]
    split
    · rename_i h
      exact fine_newObj I (I.ptr v h) (loose_of_ptr I h)
    · exact .refl I
  | ofValue v =>
    simp only [step]
    split
    · rename_i h
      have F := fine_newVar (W := Writes (.ofValue v)) I (fs := m.vars v) (I.fv v (I.ptr v h))
      exact F.trans (fine_newObj F.1 (Nat.lt_succ_self _) fun o ho hf => loose_new I o ho hf)
    · exact .refl I
  | put o i x =>
    simp only [step]
    split
    · rename_i h
      simp only [Bool.and_eq_true, decide_eq_true_eq, Bool.not_eq_true'] at h
      split
      · refine fine_setVar I (I.obj o h.1.1) (loose_of_obj I h.1.1 h.1.2) ?_
        intro f hf
        rcases mem_set hf with rfl | hf
        · trivial
        · exact I.fv _ (I.obj o h.1.1) f hf
      · exact .refl I
    · exact .refl I
  | putArray o i d =>
    simp only [step]
    split
    · rename_i h
      simp only [Bool.and_eq_true, decide_eq_true_eq, Bool.not_eq_true'] at h
      obtain ⟨⟨⟨h1, h2⟩, h3⟩, h4⟩ := h
      split
      · have g := grow_newArr m (m.dgos d).1
        have I1 := I.grow g
        refine (fine_grow I g).trans (fine_setVar I1 (I1.obj o h1) (loose_of_obj I1 h1 h3) ?_)
        intro f hf
        rcases mem_set hf with rfl | hf
        · simp [Ok, St.newArr]
        · exact (I.fv _ (I.obj o h1) f hf).mono g
      · refine fine_setVar I (I.obj o h1) (loose_of_obj I h1 h3) ?_
        intro f hf
        rcases mem_set hf with rfl | hf
        · exact h2
        · exact I.fv _ (I.obj o h1) f hf
      · exact .refl I
    · exact .refl I
  | freeze o =>
    by_cases h : o < m.no ∧ (m.objs o).frozen = false
    · exact fine_freeze I h.1 h.2
    · have : step m (.freeze o) = m := by
        simp only [step]
        rw [if_neg]
        simpa using h
      rw [this]; exact .refl I
  | frozenCopy o =>
    simp only [step]
    split
    · rename_i h
      simp only [Bool.and_eq_true, decide_eq_true_eq, Bool.not_eq_true'] at h
      exact fine_frozenCopy I h.1
    · exact .refl I
  | copy o b =>
    simp only [step]
    split
    · rename_i h
      split
      · split
        · exact .refl I
        · exact fine_frozenCopy I h
      · have F := fine_newVar (W := Writes (.copy o b)) I (fs := m.fields o) (I.fv _ (I.obj o h))
        exact F.trans (fine_newObj F.1 (Nat.lt_succ_self _) fun p hp hf => loose_new I p hp hf)
    · exact .refl I
  | thawedCopy o =>
    simp only [step]
    split
    · rename_i h
      obtain ⟨g, b, _, _, _⟩ := thawedFields_spec (m.fields o) m (I.fv _ (I.obj o h))
      generalize thawedFields m (m.fields o) = r at *
      have I1 := I.grow g
      have F2 := fine_newVar (W := Writes (.thawedCopy o)) I1 b
      exact ((fine_grow I g).trans F2).trans (fine_newObj F2.1 (Nat.lt_succ_self _) fun p hp hf => loose_new I1 p hp hf)
    · exact .refl I
  | goStruct o =>
    simp only [step]
    split
    · rename_i h
      simp only [Bool.and_eq_true, decide_eq_true_eq] at h
      exact fine_expose I (I.obj o h.1) (loose_of_obj I h.1 hs)
    · exact .refl I
  | toPtr o =>
    simp only [step]
    split
    · rename_i h
      split
      · have F := fine_newVar (W := Writes (.toPtr o)) I (fs := m.fields o) (I.fv _ (I.obj o h))
        exact F.trans (fine_expose F.1 (Nat.lt_succ_self _) fun p hp hf => loose_new I p hp hf)
      · rename_i hf
        split
        · exact fine_expose I (I.obj o h) (loose_of_obj I h (by simpa using hf))
        · exact .refl I
    · exact .refl I
  | toVar o v =>
    simp only [step]
    split
    · rename_i h
      simp only [Bool.and_eq_true, decide_eq_true_eq] at h
      exact fine_setVar I (I.ptr v h.2) (loose_of_ptr I h.2) (I.fv _ (I.obj o h.1))
    · exact .refl I

/-! ## Runs -/

theorem inv_run : ∀ (os : List Op) {m : St}, Inv m → SafeRun m os → Inv (run m os)
  | [], _, I, _ => I
  | op :: os, m, I, h => inv_run os (fine_step I op h.1).1 h.2

theorem kept_run {W : Nat → Prop} : ∀ (os : List Op) {m : St}, Inv m → SafeRun m os → (∀ op ∈ os, ∀ a, Writes op a → W a) → Kept W m (run m os)
  | [], m, _, _, _ => .refl W m
  | op :: os, m, I, h, hw => by
    have F := fine_step I op h.1
    have K : Kept W m (step m op) := by
      obtain ⟨a, b, c, d, e, f, g⟩ := F.2
      exact ⟨a, b, c, d, e, f, fun x hx hn => g x hx fun hw' => hn (hw op List.mem_cons_self x hw')⟩
    exact K.trans (kept_run os F.1 h.2 fun o ho => hw o (List.mem_cons_of_mem _ ho))

/-! ## A copy and the rest of the world -/

/-- The struct `n` shares nothing. -/
structure Sep (n : Nat) (m : St) : Prop where
  lt : n < m.no
  ptr : m.ptrs (m.objs n).var = false
  alone : ∀ p, p < m.no → p ≠ n → (m.objs p).var ≠ (m.objs n).var
  sl : ∀ a, FV.slice a ∈ m.fields n → m.slices a = false
  arr : ∀ a, FV.slice a ∈ m.fields n → ∀ v, v < m.nv → v ≠ (m.objs n).var → FV.slice a ∉ m.vars v

/-- What a step that avoids `n` leaves as it is -/
structure Still (n : Nat) (D : Nat → Prop) (m m' : St) : Prop where
  objs : m'.objs n = m.objs n
  vars : m'.vars (m.objs n).var = m.vars (m.objs n).var
  arrs : ∀ a, FV.slice a ∈ m.fields n → m'.arrs a = m.arrs a
  dgos : ∀ d, D d → (m'.dgos d).1 = (m.dgos d).1

/-! ## Programs that work on what is new -/

/-- What is new refers to what is new, and the counters have not gone down. -/
structure Later (b : Base) (m : St) : Prop where
  nv : b.nv ≤ m.nv
  na : b.na ≤ m.na
  nd : b.nd ≤ m.nd
  no : b.no ≤ m.no
  obj : ∀ o, b.no ≤ o → o < m.no → b.nv ≤ (m.objs o).var
  fv : ∀ v, b.nv ≤ v → v < m.nv → ∀ f ∈ m.vars v, f.New b
  lt : ∀ o, o < m.no → (m.objs o).var < m.nv

/-- What was there is as it was. -/
structure Frame (b : Base) (m m' : St) : Prop where
  vars : ∀ v, v < b.nv → m'.vars v = m.vars v
  arrs : ∀ a, a < b.na → m'.arrs a = m.arrs a
  dgos : ∀ d, d < b.nd → m'.dgos d = m.dgos d
  objs : ∀ o, o < b.no → m'.objs o = m.objs o

theorem Frame.refl (b : Base) (m : St) : Frame b m m := ⟨fun _ _ => rfl, fun _ _ => rfl, fun _ _ => rfl, fun _ _ => rfl⟩
theorem Frame.trans {b : Base} {x y z : St} (h : Frame b x y) (h' : Frame b y z) : Frame b x z :=
  ⟨fun v hv => (h'.vars v hv).trans (h.vars v hv), fun v hv => (h'.arrs v hv).trans (h.arrs v hv), fun v hv => (h'.dgos v hv).trans (h.dgos v hv),
    fun v hv => (h'.objs v hv).trans (h.objs v hv)⟩


section Sep
variable {n : Nat} {D : Nat → Prop}

/-- A step that avoids the struct -/
def Apart (n : Nat) (D : Nat → Prop) (m m' : St) : Prop := Sep n m' ∧ Still n D m m'

theorem Apart.refl {m : St} (S : Sep n m) : Apart n D m m := ⟨S, rfl, rfl, fun _ _ => rfl, fun _ _ => rfl⟩

theorem Apart.trans {a b c : St} (h : Apart n D a b) (h' : Apart n D b c) : Apart n D a c := by
  obtain ⟨_, h1, h2, h3, h4⟩ := h
  obtain ⟨S, g1, g2, g3, g4⟩ := h'
  refine ⟨S, g1.trans h1, ?_, ?_, fun d hd => (g4 d hd).trans (h4 d hd)⟩
  · rw [h1] at g2; exact g2.trans h2
  · intro x hx
    rw [g3 x (by rw [St.fields, h1, h2]; exact hx), h3 x hx]

/-- The slices in these fields are not those of the struct. -/
def Foreign (n : Nat) (m : St) (fs : List FV) : Prop := ∀ a, FV.slice a ∈ fs → FV.slice a ∉ m.fields n

theorem apart_grow {m m' : St} (I : Inv m) (S : Sep n m) (h : Grow m m') (hD : ∀ d, D d → d < m.nd) : Apart n D m m' := by
  have hf : m'.fields n = m.fields n := by rw [St.fields, h.vars, h.objs]; rfl
  refine ⟨⟨?_, ?_, ?_, ?_, ?_⟩, by rw [h.objs], by rw [h.vars], ?_, ?_⟩
  · rw [h.no]; exact S.lt
  · rw [h.ptrs, h.objs]; exact S.ptr
  · rw [h.no, h.objs]; exact S.alone
  · rw [hf, h.slices]; exact S.sl
  · rw [hf, h.nv, h.objs, h.vars]; exact S.arr
  · exact fun a ha => h.arrs a (I.fv _ (I.obj n S.lt) _ ha)
  · exact fun d hd => by rw [h.dgos d (hD d hd)]

theorem apart_setVar {m : St} (S : Sep n m) {v : Nat} {fs : List FV} (hv : v ≠ (m.objs n).var) (hf : Foreign n m fs) : Apart n D m (m.setVar v fs) := by
  have same : (m.setVar v fs).vars (m.objs n).var = m.vars (m.objs n).var := by
    simp only [St.setVar, Function.update_apply]
    rw [if_neg (Ne.symm hv)]
  have hfs : (m.setVar v fs).fields n = m.fields n := same
  refine ⟨⟨S.lt, S.ptr, S.alone, ?_, ?_⟩, rfl, same, fun _ _ => rfl, fun _ _ => rfl⟩
  · rw [hfs]; exact S.sl
  · rw [hfs]
    intro a ha w hw hne hmem
    simp only [St.setVar, Function.update_apply] at hmem
    split at hmem
    · exact hf a hmem ha
    · exact S.arr a ha w hw hne hmem

theorem apart_newVar {m : St} (I : Inv m) (S : Sep n m) {fs : List FV} (hf : Foreign n m fs) : Apart n D m (m.newVar fs) := by
  have hv := I.obj n S.lt
  have same : (m.newVar fs).vars (m.objs n).var = m.vars (m.objs n).var := by
    simp only [St.newVar, Function.update_apply]
    rw [if_neg (by omega)]
  have hfs : (m.newVar fs).fields n = m.fields n := same
  refine ⟨⟨S.lt, S.ptr, S.alone, ?_, ?_⟩, rfl, same, fun _ _ => rfl, fun _ _ => rfl⟩
  · rw [hfs]; exact S.sl
  · rw [hfs]
    intro a ha w hw hne hmem
    simp only [St.newVar, Function.update_apply] at hmem hw
    split at hmem
    · exact hf a hmem ha
    · exact S.arr a ha w (by omega) hne hmem

theorem apart_newObj {m : St} (S : Sep n m) {o : Obj} (hv : o.var ≠ (m.objs n).var) : Apart n D m (m.newObj o) := by
  have hn := S.lt
  have same : ∀ p, p < m.no → (m.newObj o).objs p = m.objs p := by
    intro p hp
    simp only [St.newObj, Function.update_apply]
    rw [if_neg (by omega)]
  have hfs : (m.newObj o).fields n = m.fields n := by rw [St.fields, same n hn]; rfl
  refine ⟨⟨Nat.lt_succ_of_lt hn, ?_, ?_, ?_, ?_⟩, same n hn, rfl, fun _ _ => rfl, fun _ _ => rfl⟩
  · rw [same n hn]; exact S.ptr
  · rw [same n hn]
    intro p hp hpn
    by_cases e : p = m.no
    · subst e
      simp only [St.newObj, Function.update_self]
      exact hv
    · have : p < m.no := by simp only [St.newObj] at hp; omega
      rw [same p this]
      exact S.alone p this hpn
  · rw [hfs]; exact S.sl
  · rw [hfs, same n hn]; exact S.arr

theorem apart_expose {m : St} (S : Sep n m) {v : Nat} (hv : v ≠ (m.objs n).var) : Apart n D m (m.expose v) := by
  refine ⟨⟨S.lt, ?_, S.alone, S.sl, S.arr⟩, rfl, rfl, fun _ _ => rfl, fun _ _ => rfl⟩
  change (m.expose v).ptrs (m.objs n).var = false
  simp only [St.expose, Function.update_apply]
  rw [if_neg (Ne.symm hv)]
  exact S.ptr

theorem apart_slice {m : St} (S : Sep n m) {a : Nat} (ha : FV.slice a ∉ m.fields n) : Apart n D m { m with slices := update m.slices a true } := by
  refine ⟨⟨S.lt, S.ptr, S.alone, ?_, S.arr⟩, rfl, rfl, fun _ _ => rfl, fun _ _ => rfl⟩
  intro x hx
  simp only [Function.update_apply]
  split
  · rename_i h; subst h; exact absurd hx ha
  · exact S.sl x hx

theorem apart_arr {m : St} (S : Sep n m) {a : Nat} (ha : FV.slice a ∉ m.fields n) (xs : List Int) : Apart n D m { m with arrs := update m.arrs a xs } := by
  refine ⟨⟨S.lt, S.ptr, S.alone, S.sl, S.arr⟩, rfl, rfl, ?_, fun _ _ => rfl⟩
  intro x hx
  simp only [Function.update_apply]
  split
  · rename_i h; subst h; exact absurd hx ha
  · rfl

theorem apart_dgo {m : St} (S : Sep n m) {d : Nat} (y : List Int × Bool) (h : D d → y.1 = (m.dgos d).1) :
    Apart n D m { m with dgos := update m.dgos d y } := by
  refine ⟨⟨S.lt, S.ptr, S.alone, S.sl, S.arr⟩, rfl, rfl, fun _ _ => rfl, ?_⟩
  intro x hx
  simp only [Function.update_apply]
  split
  · rename_i e; rw [e] at hx ⊢; exact h hx
  · rfl

theorem apart_harden {m m' : St} (S : Sep n m) (h : Harden m m') : Apart n D m m' := by
  have hf : m'.fields n = m.fields n := by rw [St.fields, h.vars, h.objs]; rfl
  refine ⟨⟨?_, ?_, ?_, ?_, ?_⟩, by rw [h.objs], by rw [h.vars], fun a _ => by rw [h.arrs], fun d _ => h.elems d⟩
  · rw [h.no]; exact S.lt
  · rw [h.ptrs, h.objs]; exact S.ptr
  · rw [h.no, h.objs]; exact S.alone
  · rw [hf, h.slices]; exact S.sl
  · rw [hf, h.nv, h.objs, h.vars]; exact S.arr

theorem apart_obj {m : St} (S : Sep n m) {o : Nat} (ho : o ≠ n) {x : Obj} (hv : x.var ≠ (m.objs n).var) :
    Apart n D m { m with objs := update m.objs o x } := by
  have same : update m.objs o x n = m.objs n := by rw [Function.update_apply, if_neg (Ne.symm ho)]
  refine ⟨⟨S.lt, ?_, ?_, ?_, ?_⟩, same, rfl, fun _ _ => rfl, fun _ _ => rfl⟩
  · simp only [same]; exact S.ptr
  · simp only [same]
    intro p hp hpn
    rw [Function.update_apply]
    split
    · exact hv
    · exact S.alone p hp hpn
  · simp only [St.fields, same]; exact S.sl
  · simp only [St.fields, same]; exact S.arr

theorem foreign_obj {m : St} (I : Inv m) (S : Sep n m) {o : Nat} (ho : o < m.no) (hn : o ≠ n) : Foreign n m (m.fields o) :=
  fun a ha hn' => S.arr a hn' _ (I.obj o ho) (S.alone o ho hn) ha

theorem foreign_has {m : St} (S : Sep n m) {fs : List FV} (h : ∀ f ∈ fs, m.has f = true) : Foreign n m fs := by
  intro a ha hn
  have := h _ ha
  rw [St.has, S.sl a hn] at this
  cases this

theorem foreign_set {m : St} {fs : List FV} {i : Nat} {f : FV} (h : Foreign n m fs) (hf : ∀ a, f = .slice a → FV.slice a ∉ m.fields n) :
    Foreign n m (fs.set i f) := by
  intro a ha
  rcases mem_set ha with e | e
  · exact hf a e.symm
  · exact h a e

theorem ptr_ne {m : St} (S : Sep n m) {v : Nat} (h : m.ptrs v = true) : v ≠ (m.objs n).var := by
  rintro rfl
  rw [S.ptr] at h
  cases h

theorem foreign_var {m : St} (I : Inv m) (S : Sep n m) {v : Nat} (h : m.ptrs v = true) : Foreign n m (m.vars v) :=
  fun a ha hn => S.arr a hn v (I.ptr v h) (ptr_ne S h) ha

theorem frozenFields_slices : ∀ (fs : List FV) (m : St) (a : Nat), FV.slice a ∈ (frozenFields m fs).2 → FV.slice a ∈ fs
  | [], _, _, h => by simp [frozenFields] at h
  | .scalar x :: fs, m, a, h => by
    simp only [frozenFields, List.mem_cons, reduceCtorEq, false_or] at h ⊢
    exact frozenFields_slices fs m a h
  | .slice x :: fs, m, a, h => by
    simp only [frozenFields, List.mem_cons] at h ⊢
    exact h.imp id (frozenFields_slices fs m a)
  | .dgo x :: fs, m, a, h => by
    simp only [frozenFields] at h
    split at h
    · simp only [List.mem_cons, reduceCtorEq, false_or] at h ⊢
      exact frozenFields_slices fs _ a h
    · simp only [List.mem_cons, reduceCtorEq, false_or] at h ⊢
      exact frozenFields_slices fs _ a h

theorem apart_frozenCopy {m : St} (I : Inv m) (S : Sep n m) (hD : ∀ d, D d → d < m.nd) {o : Nat} (ho : o < m.no) (hn : o ≠ n) :
    Apart n D m (((frozenFields m (m.fields o)).1.newVar (frozenFields m (m.fields o)).2).newObj ⟨(frozenFields m (m.fields o)).1.nv, true, true⟩) := by
  have hsl := frozenFields_slices (m.fields o) m
  obtain ⟨g, b, c, d⟩ := frozenFields_spec (m.fields o) m (I.fv _ (I.obj o ho))
  generalize frozenFields m (m.fields o) = r at *
  have A1 := apart_grow (D := D) I S g hD
  have I1 := I.grow g
  have hf : r.1.fields n = m.fields n := by rw [St.fields, g.vars, g.objs]; rfl
  have A2 : Apart n D r.1 (r.1.newVar r.2) := apart_newVar I1 A1.1 fun a ha => by rw [hf]; exact foreign_obj I S ho hn a (hsl a ha)
  refine (A1.trans A2).trans (apart_newObj A2.1 ?_)
  have := I1.obj n A1.1.lt
  change r.1.nv ≠ (r.1.objs n).var
  omega

theorem apart_step {m : St} (I : Inv m) (S : Sep n m) (hD : ∀ d, D d → d < m.nd) (op : Op) (h : Avoids n D op) : Apart n D m (step m op) := by
  have hnv := I.obj n S.lt
  have hne : m.nv ≠ (m.objs n).var := by omega
  cases op with
  | goSlice xs =>
    simp only [step]
    have A := apart_grow (D := D) I S (grow_newArr m xs) hD
    refine A.trans (apart_slice A.1 ?_)
    change FV.slice m.na ∉ m.fields n
    intro hm
    have := I.fv _ hnv _ hm
    simp only [Ok] at this; omega
  | goVar fs =>
    simp only [step]
    split
    · rename_i h
      have A : Apart n D m (m.newVar fs) := apart_newVar I S (foreign_has S (List.all_eq_true.1 h))
      exact A.trans (apart_expose A.1 hne)
    · exact .refl S
  | goSet v i f =>
    simp only [step]
    split
    · rename_i h
      rw [Bool.and_eq_true] at h
      refine apart_setVar S (ptr_ne S h.1) (foreign_set (foreign_var I S h.1) ?_)
      rintro a rfl
      exact foreign_has S (fs := [.slice a]) (by simpa using h.2) a (by simp)
    · exact .refl S
  | goRead v i =>
    simp only [step]
    split
    · rename_i a ha
      split
      · rename_i hp
        exact apart_slice S (foreign_var I S hp a (List.mem_of_getElem? ha))
      · exact .refl S
    · exact .refl S
  | goWrite a i x =>
    simp only [step]
    split
    · rename_i hs
      refine apart_arr S ?_ _
      intro hm
      rw [S.sl a hm] at hs; cases hs
    · exact .refl S
  | dgoNew xs => exact apart_grow I S (grow_newDgo m xs false) hD
  | dgoSet d i x =>
    simp only [step]
    split
    · exact .refl S
    · exact apart_dgo S _ fun hd => absurd hd h
  | dgoFreeze d =>
    simp only [step]
    split
    · exact apart_dgo S _ fun _ => rfl
    · exact .refl S
  | ofPtr v =>
    simp only [step]
    split
    · rename_i hp
      exact apart_newObj S (ptr_ne S hp)
    · exact .refl S
  | ofValue v =>
    simp only [step]
    split
    · rename_i hp
      have A : Apart n D m (m.newVar (m.vars v)) := apart_newVar I S (foreign_var I S hp)
      exact A.trans (apart_newObj A.1 hne)
    · exact .refl S
  | put o i x =>
    simp only [step]
    split
    · rename_i hc
      simp only [Bool.and_eq_true, decide_eq_true_eq, Bool.not_eq_true'] at hc
      split
      · exact apart_setVar S (S.alone o hc.1.1 h) (foreign_set (foreign_obj I S hc.1.1 h) (by rintro a ha; cases ha))
      · exact .refl S
    · exact .refl S
  | putArray o i d =>
    simp only [step]
    split
    · rename_i hc
      simp only [Bool.and_eq_true, decide_eq_true_eq, Bool.not_eq_true'] at hc
      obtain ⟨⟨⟨h1, h2⟩, h3⟩, h4⟩ := hc
      split
      · have A := apart_grow (D := D) I S (grow_newArr m (m.dgos d).1) hD
        refine A.trans (apart_setVar A.1 (S.alone o h1 h) (foreign_set (foreign_obj I S h1 h) ?_))
        rintro a ha
        cases ha
        change FV.slice m.na ∉ m.fields n
        intro hm
        have := I.fv _ hnv _ hm
        simp only [Ok] at this; omega
      · exact apart_setVar S (S.alone o h1 h) (foreign_set (foreign_obj I S h1 h) (by rintro a ha; cases ha))
      · exact .refl S
    · exact .refl S
  | freeze o =>
    simp only [step]
    split
    · rename_i hc
      simp only [Bool.and_eq_true, decide_eq_true_eq, Bool.not_eq_true'] at hc
      have A : Apart n D m (m.newVar (m.fields o)) := apart_newVar I S (foreign_obj I S hc.1 h)
      have B := apart_obj (D := D) A.1 h (x := ⟨m.nv, true, false⟩) hne
      exact (A.trans B).trans (apart_harden B.1 (freezeFields_spec _ _).1)
    · exact .refl S
  | frozenCopy o =>
    simp only [step]
    split
    · rename_i hc
      simp only [Bool.and_eq_true, decide_eq_true_eq, Bool.not_eq_true'] at hc
      exact apart_frozenCopy I S hD hc.1 h
    · exact .refl S
  | copy o b =>
    simp only [step]
    split
    · rename_i hc
      split
      · split
        · exact .refl S
        · exact apart_frozenCopy I S hD hc h
      · have A : Apart n D m (m.newVar (m.fields o)) := apart_newVar I S (foreign_obj I S hc h)
        exact A.trans (apart_newObj A.1 hne)
    · exact .refl S
  | thawedCopy o =>
    simp only [step]
    split
    · rename_i hc
      obtain ⟨g, b, c, _, _⟩ := thawedFields_spec (m.fields o) m (I.fv _ (I.obj o hc))
      generalize thawedFields m (m.fields o) = r at *
      have A1 := apart_grow (D := D) I S g hD
      have I1 := I.grow g
      have hf : r.1.fields n = m.fields n := by rw [St.fields, g.vars, g.objs]; rfl
      have A2 : Apart n D r.1 (r.1.newVar r.2) := apart_newVar I1 A1.1 fun a ha => by
        rw [hf]
        intro hm
        have h1 := I.fv _ hnv _ hm
        have h2 := c a ha
        simp only [Ok] at h1
        omega
      refine (A1.trans A2).trans (apart_newObj A2.1 ?_)
      have := I1.obj n A1.1.lt
      change r.1.nv ≠ (r.1.objs n).var
      omega
    · exact .refl S
  | goStruct o =>
    simp only [step]
    split
    · rename_i hc
      simp only [Bool.and_eq_true, decide_eq_true_eq] at hc
      exact apart_expose S (S.alone o hc.1 h)
    · exact .refl S
  | toPtr o =>
    simp only [step]
    split
    · rename_i hc
      split
      · have A : Apart n D m (m.newVar (m.fields o)) := apart_newVar I S (foreign_obj I S hc h)
        exact A.trans (apart_expose A.1 hne)
      · split
        · exact apart_expose S (S.alone o hc h)
        · exact .refl S
    · exact .refl S
  | toVar o v =>
    simp only [step]
    split
    · rename_i hc
      simp only [Bool.and_eq_true, decide_eq_true_eq] at hc
      exact apart_setVar S (ptr_ne S hc.2) (foreign_obj I S hc.1 h)
    · exact .refl S

theorem apart_run : ∀ (os : List Op) {m : St}, Inv m → SafeRun m os → Sep n m → (∀ d, D d → d < m.nd) → (∀ op ∈ os, Avoids n D op) →
    Apart n D m (run m os)
  | [], m, _, _, S, _, _ => .refl S
  | op :: os, m, I, hs, S, hD, ha => by
    have A := apart_step I S hD op (ha op List.mem_cons_self)
    have F := fine_step I op hs.1
    exact A.trans (apart_run os F.1 hs.2 A.1 (fun d hd => Nat.lt_of_lt_of_le (hD d hd) F.2.nd) fun o ho => ha o (List.mem_cons_of_mem _ ho))

end Sep

/-! ## Programs that work on what is new: proofs -/

section Frame
variable {b : Base}

def Beyond (b : Base) (m m' : St) : Prop := Later b m' ∧ Frame b m m'

theorem Beyond.refl {m : St} (L : Later b m) : Beyond b m m := ⟨L, .refl b m⟩
theorem Beyond.trans {x y z : St} (h : Beyond b x y) (h' : Beyond b y z) : Beyond b x z := ⟨h'.1, h.2.trans h'.2⟩

theorem beyond_grow {m m' : St} (L : Later b m) (h : Grow m m') : Beyond b m m' := by
  refine ⟨⟨by rw [h.nv]; exact L.nv, Nat.le_trans L.na h.na, Nat.le_trans L.nd h.nd, by rw [h.no]; exact L.no, ?_, ?_, ?_⟩,
    fun v _ => by rw [h.vars], fun a ha => h.arrs a (Nat.lt_of_lt_of_le ha L.na), fun d hd => h.dgos d (Nat.lt_of_lt_of_le hd L.nd), fun o _ => by rw [h.objs]⟩
  · rw [h.no, h.objs]; exact L.obj
  · rw [h.nv, h.vars]; exact L.fv
  · rw [h.no, h.objs, h.nv]; exact L.lt

theorem beyond_setVar {m : St} (L : Later b m) {v : Nat} (hv : b.nv ≤ v) {fs : List FV} (hf : ∀ f ∈ fs, f.New b) : Beyond b m (m.setVar v fs) := by
  refine ⟨⟨L.nv, L.na, L.nd, L.no, L.obj, ?_, L.lt⟩, ?_, fun _ _ => rfl, fun _ _ => rfl, fun _ _ => rfl⟩
  · intro w h1 h2 f hm
    simp only [St.setVar, Function.update_apply] at hm
    split at hm
    · exact hf f hm
    · exact L.fv w h1 h2 f hm
  · intro w hw
    simp only [St.setVar, Function.update_apply]
    rw [if_neg (by omega)]

theorem beyond_newVar {m : St} (L : Later b m) {fs : List FV} (hf : ∀ f ∈ fs, f.New b) : Beyond b m (m.newVar fs) := by
  have hb := L.nv
  refine ⟨⟨Nat.le_succ_of_le L.nv, L.na, L.nd, L.no, L.obj, ?_, fun o ho => Nat.lt_succ_of_lt (L.lt o ho)⟩, ?_, fun _ _ => rfl, fun _ _ => rfl, fun _ _ => rfl⟩
  · intro w h1 h2 f hm
    simp only [St.newVar, Function.update_apply] at hm h2
    split at hm
    · exact hf f hm
    · exact L.fv w h1 (by omega) f hm
  · intro w hw
    simp only [St.newVar, Function.update_apply]
    rw [if_neg (by omega)]

theorem beyond_newObj {m : St} (L : Later b m) {o : Obj} (h1 : b.nv ≤ o.var) (h2 : o.var < m.nv) : Beyond b m (m.newObj o) := by
  have hb := L.no
  refine ⟨⟨L.nv, L.na, L.nd, Nat.le_succ_of_le L.no, ?_, L.fv, ?_⟩, fun _ _ => rfl, fun _ _ => rfl, fun _ _ => rfl, ?_⟩
  · intro p hp hp'
    simp only [St.newObj, Function.update_apply] at hp' ⊢
    split
    · exact h1
    · exact L.obj p hp (by omega)
  · intro p hp
    simp only [St.newObj, Function.update_apply] at hp ⊢
    split
    · exact h2
    · exact L.lt p (by omega)
  · intro p hp
    simp only [St.newObj, Function.update_apply]
    rw [if_neg (by omega)]

theorem beyond_expose {m : St} (L : Later b m) (v : Nat) : Beyond b m (m.expose v) :=
  ⟨⟨L.nv, L.na, L.nd, L.no, L.obj, L.fv, L.lt⟩, fun _ _ => rfl, fun _ _ => rfl, fun _ _ => rfl, fun _ _ => rfl⟩

theorem beyond_slice {m : St} (L : Later b m) (s : Nat → Bool) : Beyond b m { m with slices := s } :=
  ⟨⟨L.nv, L.na, L.nd, L.no, L.obj, L.fv, L.lt⟩, fun _ _ => rfl, fun _ _ => rfl, fun _ _ => rfl, fun _ _ => rfl⟩

theorem beyond_arr {m : St} (L : Later b m) {a : Nat} (ha : b.na ≤ a) (xs : List Int) : Beyond b m { m with arrs := update m.arrs a xs } := by
  refine ⟨⟨L.nv, L.na, L.nd, L.no, L.obj, L.fv, L.lt⟩, fun _ _ => rfl, ?_, fun _ _ => rfl, fun _ _ => rfl⟩
  intro x hx
  simp only [Function.update_apply]
  rw [if_neg (by omega)]

theorem beyond_dgo {m : St} (L : Later b m) {d : Nat} (hd : b.nd ≤ d) (y : List Int × Bool) : Beyond b m { m with dgos := update m.dgos d y } := by
  refine ⟨⟨L.nv, L.na, L.nd, L.no, L.obj, L.fv, L.lt⟩, fun _ _ => rfl, fun _ _ => rfl, ?_, fun _ _ => rfl⟩
  intro x hx
  simp only [Function.update_apply]
  rw [if_neg (by omega)]

theorem beyond_obj {m : St} (L : Later b m) {o : Nat} (ho : b.no ≤ o) {x : Obj} (h1 : b.nv ≤ x.var) (h2 : x.var < m.nv) :
    Beyond b m { m with objs := update m.objs o x } := by
  refine ⟨⟨L.nv, L.na, L.nd, L.no, ?_, L.fv, ?_⟩, fun _ _ => rfl, fun _ _ => rfl, fun _ _ => rfl, ?_⟩
  · intro p hp hp'
    simp only [Function.update_apply]
    split
    · exact h1
    · exact L.obj p hp hp'
  · intro p hp
    simp only [Function.update_apply]
    split
    · exact h2
    · exact L.lt p hp
  · intro p hp
    simp only [Function.update_apply]
    rw [if_neg (by omega)]

theorem beyond_freezeFields : ∀ (fs : List FV) {m : St}, Later b m → (∀ f ∈ fs, f.New b) → Beyond b m (freezeFields m fs)
  | [], m, L, _ => .refl L
  | .scalar x :: fs, m, L, h => beyond_freezeFields fs L fun f hf => h f (List.mem_cons_of_mem _ hf)
  | .slice x :: fs, m, L, h => beyond_freezeFields fs L fun f hf => h f (List.mem_cons_of_mem _ hf)
  | .dgo d :: fs, m, L, h => by
    have B := beyond_dgo L (h _ List.mem_cons_self) ((m.dgos d).1, true)
    exact B.trans (beyond_freezeFields fs B.1 fun f hf => h f (List.mem_cons_of_mem _ hf))

theorem new_set {fs : List FV} {i : Nat} {f : FV} (h : ∀ f ∈ fs, f.New b) (hf : f.New b) : ∀ g ∈ fs.set i f, g.New b := by
  intro g hg
  rcases mem_set hg with rfl | hg
  · exact hf
  · exact h g hg

theorem frozenFields_new : ∀ (fs : List FV) (m : St), b.nd ≤ m.nd → (∀ f ∈ fs, f.New b) → Grow m (frozenFields m fs).1 ∧ ∀ f ∈ (frozenFields m fs).2, f.New b
  | [], m, _, _ => ⟨.refl m, by simp [frozenFields]⟩
  | .scalar x :: fs, m, hn, h => by
    obtain ⟨a, c⟩ := frozenFields_new fs m hn fun f hf => h f (List.mem_cons_of_mem _ hf)
    refine ⟨a, ?_⟩
    simp only [frozenFields, List.mem_cons]
    rintro f (rfl | hf)
    · trivial
    · exact c f hf
  | .slice x :: fs, m, hn, h => by
    obtain ⟨a, c⟩ := frozenFields_new fs m hn fun f hf => h f (List.mem_cons_of_mem _ hf)
    refine ⟨a, ?_⟩
    simp only [frozenFields, List.mem_cons]
    rintro f (rfl | hf)
    · exact h _ List.mem_cons_self
    · exact c f hf
  | .dgo d :: fs, m, hn, h => by
    simp only [frozenFields]
    split
    · obtain ⟨a, c⟩ := frozenFields_new fs m hn fun f hf => h f (List.mem_cons_of_mem _ hf)
      refine ⟨a, ?_⟩
      simp only [List.mem_cons]
      rintro f (rfl | hf)
      · exact h _ List.mem_cons_self
      · exact c f hf
    · have g := grow_newDgo m (m.dgos d).1 true
      obtain ⟨a, c⟩ := frozenFields_new fs (m.newDgo (m.dgos d).1 true) (Nat.le_trans hn g.nd) fun f hf => h f (List.mem_cons_of_mem _ hf)
      refine ⟨g.trans a, ?_⟩
      simp only [List.mem_cons]
      rintro f (rfl | hf)
      · exact hn
      · exact c f hf

theorem thawedFields_new : ∀ (fs : List FV) (m : St), b.nd ≤ m.nd → b.na ≤ m.na → Grow m (thawedFields m fs).1 ∧ ∀ f ∈ (thawedFields m fs).2, f.New b
  | [], m, _, _ => ⟨.refl m, by simp [thawedFields]⟩
  | .scalar x :: fs, m, hn, ha => by
    obtain ⟨a, c⟩ := thawedFields_new fs m hn ha
    refine ⟨a, ?_⟩
    simp only [thawedFields, List.mem_cons]
    rintro f (rfl | hf)
    · trivial
    · exact c f hf
  | .slice x :: fs, m, hn, ha => by
    have g := grow_newArr m (m.arrs x)
    obtain ⟨a, c⟩ := thawedFields_new fs (m.newArr (m.arrs x)) (Nat.le_trans hn g.nd) (Nat.le_trans ha g.na)
    simp only [thawedFields]
    refine ⟨g.trans a, ?_⟩
    simp only [List.mem_cons]
    rintro f (rfl | hf)
    · exact ha
    · exact c f hf
  | .dgo d :: fs, m, hn, ha => by
    have g := grow_newDgo m (m.dgos d).1 false
    obtain ⟨a, c⟩ := thawedFields_new fs (m.newDgo (m.dgos d).1 false) (Nat.le_trans hn g.nd) (Nat.le_trans ha g.na)
    simp only [thawedFields]
    refine ⟨g.trans a, ?_⟩
    simp only [List.mem_cons]
    rintro f (rfl | hf)
    · exact hn
    · exact c f hf

theorem fields_new {m : St} (L : Later b m) {o : Nat} (h : b.no ≤ o) (ho : o < m.no) : ∀ f ∈ m.fields o, f.New b :=
  L.fv _ (L.obj o h ho) (L.lt o ho)

theorem beyond_copy {m : St} (L : Later b m) {r : St × List FV} (g : Grow m r.1) (hr : ∀ f ∈ r.2, f.New b) (x y : Bool) :
    Beyond b m ((r.1.newVar r.2).newObj ⟨r.1.nv, x, y⟩) := by
  have B1 := beyond_grow L g
  have B2 := beyond_newVar B1.1 hr
  exact (B1.trans B2).trans (beyond_newObj B2.1 B1.1.nv (Nat.lt_succ_self _))

theorem beyond_step {m : St} (L : Later b m) (hp : ∀ v, m.ptrs v = true → v < m.nv) (op : Op) (h : op.New b) : Beyond b m (step m op) := by
  cases op with
  | goSlice xs =>
    have B := beyond_grow L (grow_newArr m xs)
    exact B.trans (beyond_slice B.1 _)
  | goVar fs =>
    simp only [step]
    split
    · have B := beyond_newVar L h
      exact B.trans (beyond_expose B.1 _)
    · exact .refl L
  | goSet v i f =>
    simp only [step]
    split
    · rename_i hc
      rw [Bool.and_eq_true] at hc
      exact beyond_setVar L h.1 (new_set (L.fv v h.1 (hp v hc.1)) h.2)
    · exact .refl L
  | goRead v i =>
    simp only [step]
    split
    · split
      · exact beyond_slice L _
      · exact .refl L
    · exact .refl L
  | goWrite a i x =>
    simp only [step]
    split
    · exact beyond_arr L h _
    · exact .refl L
  | dgoNew xs => exact beyond_grow L (grow_newDgo m xs false)
  | dgoSet d i x =>
    simp only [step]
    split
    · exact .refl L
    · exact beyond_dgo L h _
  | dgoFreeze d =>
    simp only [step]
    split
    · exact beyond_dgo L h _
    · exact .refl L
  | ofPtr v =>
    simp only [step]
    split
    · rename_i hc
      exact beyond_newObj L h (hp v hc)
    · exact .refl L
  | ofValue v =>
    simp only [step]
    split
    · rename_i hc
      exact beyond_copy (r := (m, m.vars v)) L (.refl m) (L.fv v h (hp v hc)) false false
    · exact .refl L
  | put o i x =>
    simp only [step]
    split
    · rename_i hc
      simp only [Bool.and_eq_true, decide_eq_true_eq, Bool.not_eq_true'] at hc
      split
      · exact beyond_setVar L (L.obj o h hc.1.1) (new_set (fields_new L h hc.1.1) trivial)
      · exact .refl L
    · exact .refl L
  | putArray o i d =>
    simp only [step]
    split
    · rename_i hc
      simp only [Bool.and_eq_true, decide_eq_true_eq, Bool.not_eq_true'] at hc
      obtain ⟨⟨⟨h1, h2⟩, h3⟩, h4⟩ := hc
      split
      · have B := beyond_grow L (grow_newArr m (m.dgos d).1)
        exact B.trans (beyond_setVar B.1 (L.obj o h.1 h1) (new_set (fields_new L h.1 h1) L.na))
      · exact beyond_setVar L (L.obj o h.1 h1) (new_set (fields_new L h.1 h1) h.2)
      · exact .refl L
    · exact .refl L
  | freeze o =>
    simp only [step]
    split
    · rename_i hc
      simp only [Bool.and_eq_true, decide_eq_true_eq, Bool.not_eq_true'] at hc
      have hf := fields_new L h hc.1
      have B1 := beyond_newVar L hf
      have B2 := beyond_obj B1.1 h (x := ⟨m.nv, true, false⟩) L.nv (Nat.lt_succ_self _)
      exact (B1.trans B2).trans (beyond_freezeFields _ B2.1 hf)
    · exact .refl L
  | frozenCopy o =>
    simp only [step]
    split
    · rename_i hc
      simp only [Bool.and_eq_true, decide_eq_true_eq, Bool.not_eq_true'] at hc
      obtain ⟨g, hr⟩ := frozenFields_new (m.fields o) m L.nd (fields_new L h hc.1)
      exact beyond_copy L g hr true true
    · exact .refl L
  | copy o c =>
    simp only [step]
    split
    · rename_i hc
      split
      · split
        · exact .refl L
        · obtain ⟨g, hr⟩ := frozenFields_new (m.fields o) m L.nd (fields_new L h hc)
          exact beyond_copy L g hr true true
      · exact beyond_copy (r := (m, m.fields o)) L (.refl m) (fields_new L h hc) false true
    · exact .refl L
  | thawedCopy o =>
    simp only [step]
    split
    · obtain ⟨g, hr⟩ := thawedFields_new (m.fields o) m L.nd L.na
      exact beyond_copy L g hr false true
    · exact .refl L
  | goStruct o =>
    simp only [step]
    split
    · exact beyond_expose L _
    · exact .refl L
  | toPtr o =>
    simp only [step]
    split
    · rename_i hc
      split
      · have B := beyond_newVar L (fields_new L h hc)
        exact B.trans (beyond_expose B.1 _)
      · split
        · exact beyond_expose L _
        · exact .refl L
    · exact .refl L
  | toVar o v =>
    simp only [step]
    split
    · rename_i hc
      simp only [Bool.and_eq_true, decide_eq_true_eq] at hc
      exact beyond_setVar L h.2 (fields_new L h.1 hc.1)
    · exact .refl L

theorem beyond_run : ∀ (os : List Op) {m : St}, Inv m → SafeRun m os → Later b m → (∀ op ∈ os, op.New b) → Beyond b m (run m os)
  | [], m, _, _, L, _ => .refl L
  | op :: os, m, I, hs, L, h => by
    have B := beyond_step L I.ptr op (h op List.mem_cons_self)
    exact B.trans (beyond_run os (fine_step I op hs.1).1 hs.2 B.1 fun o ho => h o (List.mem_cons_of_mem _ ho))

end Frame

/-! ## Copies and pointers: proofs -/

theorem view_frame {m m' : St} (I : Inv m) (F : Frame m.base m m') {p : Nat} (hp : p < m.no) : view m' p = view m p := by
  have hv := I.obj p hp
  rw [view, view, values, values, F.objs p hp, F.vars _ hv]
  apply List.map_congr_left
  intro f hf
  have := I.fv _ hv f hf
  cases f with
  | scalar => rfl
  | slice a => rw [look, look, F.arrs a this]
  | dgo d => rw [look, look, F.dgos d this]

theorem copy_shows {m : St} (I : Inv m) {r : St × List FV} (g : Grow m r.1) {o : Nat} (ho : o < m.no) (hr : r.2.map (look r.1) = (m.fields o).map (look m)) (x y : Bool) :
    let m' := (r.1.newVar r.2).newObj ⟨r.1.nv, x, y⟩
    m'.no = m.no + 1 ∧ (m'.objs m.no).frozen = x ∧ (m'.objs m.no).addressable = y ∧ m'.fields m.no = r.2 ∧ view m' m.no = view m o ∧ ∀ p, p < m.no → view m' p = view m p := by
  have hno : r.1.no = m.no := g.no
  have e : ((r.1.newVar r.2).newObj ⟨r.1.nv, x, y⟩).objs m.no = ⟨r.1.nv, x, y⟩ := by simp [St.newObj, St.newVar, hno]
  have ef : ((r.1.newVar r.2).newObj ⟨r.1.nv, x, y⟩).fields m.no = r.2 := by rw [St.fields, e]; simp [St.newObj, St.newVar]
  refine ⟨by simp [St.newObj, St.newVar, hno], by rw [e], by rw [e], ef, ?_, ?_⟩
  · have : (r.2.map (look ((r.1.newVar r.2).newObj ⟨r.1.nv, x, y⟩))) = r.2.map (look r.1) := rfl
    change (((r.1.newVar r.2).newObj ⟨r.1.nv, x, y⟩).fields m.no).map _ = _
    rw [ef, this, hr]; rfl
  · intro p hp
    refine view_frame (m' := (r.1.newVar r.2).newObj ⟨r.1.nv, x, y⟩) I ⟨?_, g.arrs, g.dgos, ?_⟩ hp
    · intro v hv
      change Function.update r.1.vars r.1.nv r.2 v = _
      have : v < m.nv := hv
      rw [Function.update_apply, if_neg (by rw [g.nv]; omega), g.vars]
    · intro q hq
      change Function.update r.1.objs r.1.no _ q = _
      have : q < m.no := hq
      rw [Function.update_apply, if_neg (by rw [g.no]; omega), g.objs]

theorem freeze_shows {m : St} (I : Inv m) {o : Nat} (ho : o < m.no) (hf : (m.objs o).frozen = false) :
    ((step m (.freeze o)).objs o).frozen = true ∧ ∀ p, p < m.no → view (step m (.freeze o)) p = view m p := by
  have hc : (decide (o < m.no) && !(m.objs o).frozen) = true := by simp [ho, hf]
  rw [step, if_pos hc]
  simp only []
  obtain ⟨H, _⟩ := freezeFields_spec (m.fields o)
    { m.newVar (m.fields o) with objs := update (m.newVar (m.fields o)).objs o ⟨m.nv, true, false⟩ }
  generalize freezeFields _ _ = m' at *
  have ho' : m'.objs = update m.objs o ⟨m.nv, true, false⟩ := H.objs
  have hv' : m'.vars = update m.vars m.nv (m.fields o) := H.vars
  have ha' : m'.arrs = m.arrs := H.arrs
  have hl : ∀ f, look m' f = look m f := by
    intro f
    cases f with
    | scalar => rfl
    | slice a => rw [look, look, ha']
    | dgo d => rw [look, look, H.elems]; rfl
  refine ⟨by rw [ho']; simp, ?_⟩
  intro p hp
  have hpv := I.obj p hp
  have : m'.vars (m'.objs p).var = m.vars (m.objs p).var := by
    by_cases h : p = o
    · subst h; simp [ho', hv', St.fields]
    · rw [ho', hv', Function.update_apply (f := m.objs), if_neg h, Function.update_apply, if_neg (by omega)]
  rw [view, view, values, values, this]
  exact List.map_congr_left fun f _ => hl f

theorem sep_thawed {m : St} (I : Inv m) {o : Nat} (ho : o < m.no) :
    Sep m.no (step m (.thawedCopy o)) ∧ (∀ d, FV.dgo d ∈ (step m (.thawedCopy o)).fields m.no → m.nd ≤ d ∧ d < (step m (.thawedCopy o)).nd) := by
  have I' := (fine_step I (.thawedCopy o) trivial).1
  simp only [step, if_pos ho] at I' ⊢
  obtain ⟨g, b, c, c', d⟩ := thawedFields_spec (m.fields o) m (I.fv _ (I.obj o ho))
  have CS := copy_shows I g ho d false true
  generalize thawedFields m (m.fields o) = r at *
  obtain ⟨h1, h2, h3, h4, h5, h6⟩ := CS
  have e : ((r.1.newVar r.2).newObj ⟨r.1.nv, false, true⟩).objs m.no = ⟨r.1.nv, false, true⟩ := by simp [St.newObj, St.newVar, g.no]
  refine ⟨⟨by rw [h1]; omega, ?_, ?_, ?_, ?_⟩, ?_⟩
  · rw [e]
    change r.1.ptrs r.1.nv = false
    rw [g.ptrs, g.nv]
    cases hp : m.ptrs m.nv with
    | false => rfl
    | true => have := I.ptr _ hp; omega
  · intro p hp hne
    rw [h1] at hp
    have : p < m.no := by omega
    rw [e]
    change (Function.update r.1.objs r.1.no _ p).var ≠ r.1.nv
    rw [Function.update_apply, if_neg (by rw [g.no]; omega), g.objs, g.nv]
    have := I.obj p this
    omega
  · rw [h4]
    intro a ha
    change r.1.slices a = false
    rw [g.slices]
    cases hs : m.slices a with
    | false => rfl
    | true => have := I.sl _ hs; have := c a ha; omega
  · rw [h4, e]
    intro a ha v hv hne hm
    change FV.slice a ∈ Function.update r.1.vars r.1.nv r.2 v at hm
    rw [Function.update_apply, if_neg hne, g.vars] at hm
    have hlt : v < m.nv := by
      change v < r.1.nv + 1 at hv
      change v ≠ r.1.nv at hne
      rw [g.nv] at hv hne; omega
    have := I.fv v hlt _ hm
    have := c a ha
    simp only [Ok] at *
    omega
  · rw [h4]
    exact fun d hd => ⟨c' d hd, b _ hd⟩

theorem view_still {n : Nat} {m m' : St} (S : Still n (fun d => FV.dgo d ∈ m.fields n) m m') : view m' n = view m n := by
  rw [view, view, values, values, S.objs, S.vars]
  apply List.map_congr_left
  intro f hf
  cases f with
  | scalar => rfl
  | slice a => rw [look, look, S.arrs a hf]
  | dgo d => rw [look, look, S.dgos d hf]

theorem later_base {m : St} (I : Inv m) : Later m.base m :=
  ⟨Nat.le_refl _, Nat.le_refl _, Nat.le_refl _, Nat.le_refl _, fun o h1 h2 => absurd h2 (Nat.not_lt.2 h1), fun v h1 h2 => absurd h2 (Nat.not_lt.2 h1), I.obj⟩

theorem later_thawed {m : St} (I : Inv m) {o : Nat} (ho : o < m.no) : Beyond m.base m (step m (.thawedCopy o)) := by
  simp only [step, if_pos ho]
  have L := later_base I
  obtain ⟨g, hr⟩ := thawedFields_new (m.fields o) m L.nd L.na
  exact beyond_copy L g hr false true

theorem objs_step {m : St} {n : Nat} (hn : n < m.no) (op : Op) (h : op ≠ .freeze n) : n < (step m op).no ∧ (step m op).objs n = m.objs n := by
  have new : ∀ (m' : St) (o : Obj), m'.no = m.no → m'.objs = m.objs → n < (m'.newObj o).no ∧ (m'.newObj o).objs n = m.objs n := by
    intro m' o e e'
    simp only [St.newObj, Function.update_apply, e, e']
    exact ⟨by omega, if_neg (by omega)⟩
  have fc : ∀ fs, (frozenFields m fs).1.no = m.no ∧ (frozenFields m fs).1.objs = m.objs := by
    intro fs
    have G : ∀ (fs : List FV) (m : St), Grow m (frozenFields m fs).1 := fun fs m =>
      (frozenFields_new (b := ⟨0, 0, 0, 0⟩) fs m (Nat.zero_le _) (fun f _ => by cases f <;> simp [FV.New])).1
    exact ⟨(G fs m).no, (G fs m).objs⟩
  have tc : ∀ fs, (thawedFields m fs).1.no = m.no ∧ (thawedFields m fs).1.objs = m.objs := by
    intro fs
    have G := (thawedFields_new (b := ⟨0, 0, 0, 0⟩) fs m (Nat.zero_le _) (Nat.zero_le _)).1
    exact ⟨G.no, G.objs⟩
  cases op with
  | freeze o =>
    have hne : o ≠ n := fun e => h (by rw [e])
    simp only [step]
    split
    · obtain ⟨H, _⟩ := freezeFields_spec (m.fields o)
        { m.newVar (m.fields o) with objs := update (m.newVar (m.fields o)).objs o ⟨m.nv, true, false⟩ }
      rw [H.no, H.objs]
      refine ⟨hn, ?_⟩
      change update m.objs o _ n = _
      rw [Function.update_apply, if_neg (Ne.symm hne)]
    · exact ⟨hn, rfl⟩
  | ofPtr v => simp only [step]; split <;> first | exact new _ _ rfl rfl | exact ⟨hn, rfl⟩
  | ofValue v => simp only [step]; split <;> first | exact new _ _ rfl rfl | exact ⟨hn, rfl⟩
  | frozenCopy o =>
    simp only [step]
    split
    · exact new _ _ (fc _).1 (fc _).2
    · exact ⟨hn, rfl⟩
  | thawedCopy o =>
    simp only [step]
    split
    · exact new _ _ (tc _).1 (tc _).2
    · exact ⟨hn, rfl⟩
  | copy o b =>
    simp only [step]
    split
    · split
      · split
        · exact ⟨hn, rfl⟩
        · exact new _ _ (fc _).1 (fc _).2
      · exact new _ _ rfl rfl
    · exact ⟨hn, rfl⟩
  | _ => simp only [step] <;> (repeat' split) <;> exact ⟨hn, rfl⟩

theorem objs_run : ∀ (os : List Op) {m : St} {n : Nat}, n < m.no → (.freeze n ∉ os) → n < (run m os).no ∧ (run m os).objs n = m.objs n
  | [], _, _, hn, _ => ⟨hn, rfl⟩
  | op :: os, m, n, hn, h => by
    obtain ⟨a, b⟩ := objs_step hn op fun e => h (e ▸ List.mem_cons_self)
    obtain ⟨c, d⟩ := objs_run os a fun hm => h (List.mem_cons_of_mem _ hm)
    exact ⟨c, d.trans b⟩

end Verif.Reflect.Alias
