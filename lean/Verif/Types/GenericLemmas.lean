import Verif.Types.GenericSpec
import Verif.Types.SoundLoops
/-!
# What `Generic` gives
-/
set_option autoImplicit false
set_option linter.unusedVariables false
set_option linter.unusedSimpArgs false
set_option linter.unnecessarySeqFocus false
namespace Verif.Types
open Verif.Value

variable {E : Env}

/-! ## Nodes -/

theorem Node.trans {x y z : Ty} (h : Node x y) (h' : Node y z) : Node x z := by
  induction h' with
  | refl => exact h
  | part hc _ ih => exact .part hc ih

theorem Node.of_part {c t : Ty} (h : c ∈ parts t) : Node c t := .part h .refl

theorem Node.occ {x t : Ty} (h : Node x t) {o : Oid} (ho : x.occ o) : t.occ o := by
  induction h with
  | refl => exact ho
  | part hc _ ih => exact part_occ hc ih

theorem Every.node {p : Ty → Prop} {x t : Ty} (h : Every p t) (hx : Node x t) : p x := by
  induction hx with
  | refl => exact h.here
  | part hc _ ih => exact ih (h.part hc)

theorem Coherent.mono {a b c d : Ty} (h : Coherent a b) (h1 : Node c a) (h2 : Node d b) : Coherent c d :=
  fun x y o hx hy => h x y o (hx.trans h1) (hy.trans h2)

theorem Coherent.any {a : Ty} : Coherent a .any := by
  intro x y o hx hy h1 h2
  cases hy with
  | refl => cases h2
  | part hc => cases hc

/-! ## Assignability of simple types that may share objects -/

def F0 : Feat := ⟨false, false, false⟩

theorem simple_andFree {t : Ty} (h : Simple t) : AndFree t := by
  refine .mk ?_ ?_ ?_ <;> rintro o ts rfl <;> exact h.elim

theorem simple_every {p : Ty → Prop} {t : Ty} (h : Simple t) (hp : ∀ x, Simple x → rangeNode x → p x) (hr : Every rangeNode t) : Every p t := by
  induction hr with
  | mk hn _ ih => exact .mk (hp _ h hn) fun c hc => ih c hc (simple_part h hc)

theorem simple_left {t : Ty} (h : Simple t) (hr : Every rangeNode t) (ha : t.Acyc) (ho : t.Ok) : Left F0 t := by
  refine ⟨simple_every h (fun x hx hn => ?_) hr, ha, ho⟩
  cases x <;> first | exact hx.elim | exact hn | trivial | rfl | skip
  · exact simple_andFree hx
  · exact ⟨simple_andFree hx.1, simple_andFree hx.2, rfl⟩

theorem simple_right {t : Ty} (h : Simple t) (hr : Every rangeNode t) (ht : Tree t) (ho : t.Ok) : Right F0 t := by
  refine ⟨simple_every h (fun x hx hn => ?_) hr, ht, ho⟩
  cases x <;> first | exact hx.elim | exact hn.elim | trivial

theorem deepAsg_incl {eqT : Ty → Ty → Bool} {rec : G → Ty → Ty → Check} {ins : G → Ty → Oid × Val → Check} {a b : Ty} {o : Oid} {g : G}
    (ha : Simple a) (hb : Simple b) (hd : a.deep? = some o)
    (h : ∀ c ∈ parts a, ∀ d, d ∈ parts b ∨ d = .any → ∀ g', GR g g' ∨ g' = none →
      ∃ r g'', rec g' c d = some (r, g'') ∧ GR g' g'' ∧ (r = true → Incl E d c)) :
    ∃ r g', deepAsg E eqT rec ins g a b = some (r, g') ∧ GR g g' ∧ (r = true → Incl E b a) := by
  cases a <;> simp only [Ty.deep?, reduceCtorEq] at hd <;> first | exact ha.elim | skip
  case sizedArr o1 e lo hi =>
    cases b <;> simp only [deepAsg, Ty.arrayType?, checkTo, Ty.operands?] <;> first | exact hb.elim | exact ⟨false, g, rfl, .refl g, by simp⟩ | skip
    rename_i o2 e' lo' hi'
    by_cases hs : lo ≤ lo' ∧ hi' ≤ hi
    · rw [if_pos hs]
      obtain ⟨r, g'', e1, _, h1⟩ := h e (by simp [parts]) e' (.inl (by simp [parts])) none (.inr rfl)
      refine ⟨r, g, by rw [e1]; rfl, .refl g, fun hr v hv hf hh => ?_⟩
      rw [has_sizedArr] at hh ⊢
      obtain ⟨vs, rfl, h2, h3, h4⟩ := hh
      rw [Fits, FitsAll_iff] at hf
      rw [Value.WF, WFs_iff] at hv
      exact ⟨vs, rfl, by omega, by omega, fun x hx => h1 hr x (hv x hx) (hf.2 x hx) (h4 x hx)⟩
    · rw [if_neg hs]
      exact ⟨false, g, rfl, .refl g, by simp⟩
  case sizedMap o1 k v lo hi =>
    have map : ∀ k' v' lo' hi', (k' ∈ parts b ∨ k' = .any) → (v' ∈ parts b ∨ v' = .any) →
        ∃ r g', (if lo ≤ lo' ∧ hi' ≤ hi then andG (rec g k k') fun g => rec g v v' else some (false, g)) = some (r, g') ∧ GR g g' ∧
          (r = true → lo ≤ lo' ∧ hi' ≤ hi ∧ Incl E k' k ∧ Incl E v' v) := by
      intro k' v' lo' hi' hk' hv'
      by_cases hs : lo ≤ lo' ∧ hi' ≤ hi
      · rw [if_pos hs]
        obtain ⟨r1, g1, e1, i1, h1⟩ := h k (by simp [parts]) k' hk' g (.inl (.refl g))
        obtain ⟨r2, g2, e2, i2, h2⟩ := h v (by simp [parts]) v' hv' g1 (.inl i1)
        rw [e1]
        cases r1 with
        | false => exact ⟨false, g1, by simp [andG], i1, by simp⟩
        | true => exact ⟨r2, g2, by simp [andG, e2], i1.trans i2, fun hr => ⟨hs.1, hs.2, h1 rfl, h2 hr⟩⟩
      · rw [if_neg hs]
        exact ⟨false, g, rfl, .refl g, by simp⟩
    cases b <;> simp only [deepAsg, Ty.mapType?, checkTo, Ty.operands?] <;> first | exact hb.elim | exact ⟨false, g, rfl, .refl g, by simp⟩ | skip
    · obtain ⟨r, g', e1, i1, h1⟩ := map .any .any 0 maxInt (.inr rfl) (.inr rfl)
      refine ⟨r, g', e1, i1, fun hr w hw hf hh => ?_⟩
      obtain ⟨h2, h3, h4, h5⟩ := h1 hr
      cases w <;> simp [has, hasP] at hh
      rename_i es
      have hw' := WF_map hw
      rw [Fits, FitsEntries_iff] at hf
      rw [has_sizedMap]
      have : 0 ≤ len es := by simp [len]
      exact ⟨es, rfl, by omega, by have := hf.1; omega, fun x hx => ⟨h4 _ (hw' x hx).1 (hf.2 x hx).1 (by simp [has, hasP]),
        h5 _ (hw' x hx).2 (hf.2 x hx).2 (by simp [has, hasP])⟩⟩
    · rename_i o2 k' v' lo' hi'
      obtain ⟨r, g', e1, i1, h1⟩ := map k' v' lo' hi' (.inl (by simp [parts])) (.inl (by simp [parts]))
      refine ⟨r, g', e1, i1, fun hr w hw hf hh => ?_⟩
      obtain ⟨h2, h3, h4, h5⟩ := h1 hr
      rw [has_sizedMap] at hh ⊢
      obtain ⟨es, rfl, h6, h7, h8⟩ := hh
      have hw' := WF_map hw
      rw [Fits, FitsEntries_iff] at hf
      exact ⟨es, rfl, by omega, by omega, fun x hx => ⟨h4 _ (hw' x hx).1 (hf.2 x hx).1 (h8 x hx).1, h5 _ (hw' x hx).2 (hf.2 x hx).2 (h8 x hx).2⟩⟩
  case sens o1 t =>
    cases b <;> simp only [deepAsg, checkTo, Ty.operands?] <;> first | exact hb.elim | exact ⟨false, g, rfl, .refl g, by simp⟩ | skip
    rename_i o2 u
    obtain ⟨r, g', e1, i1, h1⟩ := h t (by simp [parts]) u (.inl (by simp [parts])) g (.inl (.refl g))
    refine ⟨r, g', e1, i1, fun hr w hw hf hh => ?_⟩
    rw [has_sens] at hh ⊢
    obtain ⟨x, rfl, hx⟩ := hh
    rw [Value.WF] at hw
    rw [Fits] at hf
    exact ⟨x, rfl, h1 hr x hw hf hx⟩

theorem asg_incl : ∀ (n : Nat) (a b : Ty), a.depth + b.depth < n → Simple a → Simple b → Left F0 a → Right F0 b → Tree a → Coherent a b →
    ∀ g, (∀ s, g = some s → Inv2 s a) → ∃ r g', asg E n g a b = some (r, g') ∧ GR g g' ∧ (r = true → Incl E b a)
  | 0, _, _, h, _, _, _, _, _, _, _, _ => by omega
  | n + 1, a, b, hdp, ha, hb, hl, hr, hta, hco, g, hg => by
    rw [asg]
    cases ho : a.deep? with
    | none =>
      dsimp only
      rw [leafAsg_simple ha hb ho]
      refine ⟨_, g, rfl, .refl g, fun h => ?_⟩
      rw [sub_leaf ho] at h
      cases hc : leafCase E (fun _ _ => false) a b with
      | none => rw [hc] at h; cases h
      | some r => rw [hc] at h; exact leafCase_sound hl hr (by rw [hc]; exact congrArg some h)
    | some o =>
      dsimp only
      have kids : ∀ c ∈ parts a, ∀ d, d ∈ parts b ∨ d = .any → ∀ g', (∀ s, g' = some s → Inv2 s c) →
          ∃ r g'', asg E n g' c d = some (r, g'') ∧ GR g' g'' ∧ (r = true → Incl E d c) := by
        intro c hc d hd g' hg'
        have hfc := From.part hta hc
        have h1 := part_depth hc
        rcases hd with hd | rfl
        · have h2 := part_depth hd
          exact asg_incl n c d (by omega) (simple_part ha hc) (simple_part hb hd) (hl.part hc) (hr.part hd) hfc.tree
            (hco.mono (.of_part hc) (.of_part hd)) g' hg'
        · refine asg_incl n c .any ?_ (simple_part ha hc) trivial (hl.part hc) .any hfc.tree .any g' hg'
          simp only [Ty.depth]; omega
      have kids' : ∀ g0 : G, (∀ c ∈ parts a, ∀ s, g0 = some s → Inv2 s c) → ∀ c ∈ parts a, ∀ d, d ∈ parts b ∨ d = .any → ∀ g', GR g0 g' ∨ g' = none →
          ∃ r g'', asg E n g' c d = some (r, g'') ∧ GR g' g'' ∧ (r = true → Incl E d c) := by
        intro g0 h0 c hc d hd g' hg'
        refine kids c hc d hd g' ?_
        rcases hg' with h | rfl
        · exact Inv2.of (h0 c hc) h
        · rintro s ⟨⟩
      have sub2 : ∀ s, Inv2 s a → ∀ c ∈ parts a, Inv2 s c := fun s hs c hc =>
        ⟨hs.flag, fun x hx => by obtain ⟨o1, e, h⟩ := hs.inA x hx; exact ⟨o1, e, fun h' => h (part_owns hc h')⟩⟩
      cases ho' : b.deep? with
      | none =>
        dsimp only
        exact deepAsg_incl ha hb ho (kids' g fun c hc s hs => sub2 s (hg s hs) c hc)
      | some o' =>
        dsimp only
        by_cases hne : o = o'
        · subst hne
          rw [if_pos rfl]
          obtain rfl := hco a b o .refl .refl ho ho'
          exact ⟨true, g, rfl, .refl g, fun _ => .refl a⟩
        rw [if_neg hne]
        have hadd : ∀ s : Guard, Inv2 s a → ∀ c ∈ parts a, Inv2 { s with aSeen := .ty o :: s.aSeen } c := by
          intro s hs c hc
          have hfc := From.part hta hc
          refine ⟨hs.flag, fun x hx => ?_⟩
          rcases List.mem_cons.1 hx with rfl | hx
          · exact ⟨o, rfl, hfc.new o ho⟩
          · obtain ⟨o1, e1, h1⟩ := hs.inA x hx
            exact ⟨o1, e1, fun h => h1 (hfc.sub o1 h)⟩
        cases g with
        | none =>
          obtain ⟨r, g1, e1, _, i1⟩ := deepAsg_incl (E := E) (eqT := tyEq n []) (rec := asg E n) (ins := inst E n)
            (g := some { aSeen := [.ty o], bSeen := [.ty o'], seenInA := false, seenInB := false }) ha hb ho (kids' _ fun c hc s hs => by
              cases hs
              exact hadd { aSeen := [], bSeen := [.ty o'], seenInA := false, seenInB := false } ⟨rfl, by simp⟩ c hc)
          exact ⟨r, none, by dsimp only; rw [e1]; rfl, .refl _, i1⟩
        | some s =>
          have hs := hg s rfl
          have hns : s.aSeen.any (Obj.same E (.ty o)) = false := not_any_ty (P := fun o => ¬ a.owns o) hs.inA fun h => h (owns_deep ho)
          have hc1 : (s.append E (.ty o) (.ty o')).2.seenInA = false := by simp [Guard.append, hs.flag, hns]
          have hc2 : (s.append E (.ty o) (.ty o')).2.aSeen = .ty o :: s.aSeen := by simp [Guard.append, hs.flag, hns]
          have hc3 : (s.append E (.ty o) (.ty o')).1.seenInA = false := by simp [Guard.append, hs.flag, hns]
          have hc4 : (s.append E (.ty o) (.ty o')).1.aSeen = s.aSeen := by simp [Guard.append]
          obtain ⟨r, g1, e1, _, i1⟩ := deepAsg_incl (E := E) (eqT := tyEq n []) (rec := asg E n) (ins := inst E n)
            (g := some (s.append E (.ty o) (.ty o')).2) ha hb ho (kids' _ fun c hc s' hs' => by
              cases hs'
              exact ⟨hc1, by rw [hc2]; exact (hadd s hs c hc).inA⟩)
          refine ⟨r, some (s.append E (.ty o) (.ty o')).1, ?_, ⟨hc4, by rw [hc3, hs.flag]⟩, i1⟩
          dsimp only
          rw [show (s.append E (.ty o) (.ty o')).2.hit E = false by simp [Guard.hit, hc1], e1]
          rfl

theorem assignable_incl {a b : Ty} (ha : Simple a) (hb : Simple b) (hl : Left F0 a) (hr : Right F0 b) (hta : Tree a) (hco : Coherent a b)
    (h : assignable E a b = true) : Incl E b a := by
  obtain ⟨r, g, e, _, i⟩ := asg_incl (E := E) (a.depth + b.depth + 3) a b (by omega) ha hb hl hr hta hco none (by rintro s ⟨⟩)
  rw [assignable, e] at h
  exact i h

/-! ## Generic types and where their objects come from -/

/-- `g` is simple, and its objects are those of `t` or made from `o`. -/
structure GI (o : Oid) (t g : Ty) : Prop where
  simple : Simple g
  range : Every rangeNode g
  ok : g.Ok
  tree : Tree g
  acyc : g.Acyc
  nodes : ∀ x i, Node x g → x.deep? = some i → Node x t ∨ Below i o
  occ : ∀ x, g.occ x → t.occ x ∨ Below x o

theorem GI.any {o : Oid} {t : Ty} : GI o t .any where
  simple := trivial
  range := .leaf trivial rfl
  ok := trivial
  tree := .leaf (fun o h => by cases h) rfl
  acyc := trivial
  nodes := by
    intro x i hx h
    cases hx with
    | refl => cases h
    | part hc => cases hc
  occ := by intro x h; exact h.elim

theorem GI.leaf {o : Oid} {t g : Ty} (h1 : Simple g) (h2 : rangeNode g) (h3 : g.Ok) (h4 : g.Acyc) (h5 : parts g = []) (h6 : g.deep? = none)
    (h7 : ∀ x, ¬ g.occ x) : GI o t g where
  simple := h1
  range := .leaf h2 h5
  ok := h3
  tree := .leaf (fun o h => by rw [h6] at h; cases h) h5
  acyc := h4
  nodes := by
    intro x i hx h
    cases hx with
    | refl => rw [h6] at h; cases h
    | part hc => rw [h5] at hc; cases hc
  occ := by intro x h; exact (h7 x h).elim

theorem GI.mono {o o' : Oid} {t t' g : Ty} (h : GI o t g) (hn : Node t t') (ho : Below o o') : GI o' t' g :=
  ⟨h.simple, h.range, h.ok, h.tree, h.acyc, fun x i hx hi => (h.nodes x i hx hi).imp (fun h => h.trans hn) fun h => h.trans ho,
    fun x hx => (h.occ x hx).imp (fun h => hn.occ h) fun h => h.trans ho⟩

/-- The type is numbered by the program, and `n` is not one of its numbers. -/
structure Old (n : Nat) (t : Ty) : Prop where
  made : Made t
  fresh : ¬ t.occ (.user n)

theorem Old.node {n : Nat} {t c : Ty} (h : Old n t) (hc : Node c t) : Old n c := by
  refine ⟨?_, fun hx => h.fresh (hc.occ hx)⟩
  have := h.made
  clear h
  induction hc with
  | refl => exact this
  | part hc _ ih => exact ih (Every.part this hc)

theorem Old.not_below {n : Nat} {t : Ty} (h : Old n t) {x p : Oid} (hp : Below p (.user n)) (hx : t.occ x) : ¬ Below p x := by
  intro hb
  obtain ⟨m, h1, h2⟩ := occ_made h.made hx
  have := below_user hp (hb.trans h1)
  subst this
  exact h.fresh h2

theorem Old.not_deep {n : Nat} {t x : Ty} (h : Old n t) (hx : Node x t) {i p : Oid} (hi : x.deep? = some i) (hp : Below p (.user n)) : ¬ Below i p := by
  intro hb
  obtain ⟨m, rfl⟩ := h.made.node hx i hi
  have := below_user (hb.trans hp) (.refl _)
  subst this
  exact h.fresh (hx.occ (occ_deep hi))

theorem part_apart {x o : Oid} {k l : Nat} (h : Below x (.part o k)) (h' : Below x (.part o l)) : k = l := by
  induction x with
  | user n => cases h
  | part x j ih =>
    cases h with
    | refl =>
      cases h' with
      | refl => rfl
      | part _ h' => exact absurd h' not_below_part
    | part _ h =>
      cases h' with
      | refl => exact absurd h not_below_part
      | part _ h' => exact ih h h'

/-- Of generic types of two types, those that are assignable from the other accept what it accepts. -/
theorem GI.incl {n : Nat} {o : Oid} {k l : Nat} {t u a b : Ty} (ho : Below o (.user n)) (hkl : k ≠ l) (ha : GI (.part o k) t a)
    (hb : GI (.part o l) u b) (ht : Old n t) (hu : Old n u) (hco : Coherent t u) (h : assignable E a b = true) : Incl E b a := by
  refine assignable_incl ha.simple hb.simple (simple_left ha.simple ha.range ha.acyc ha.ok) (simple_right hb.simple hb.range hb.tree hb.ok) ha.tree ?_ h
  intro x y i hx hy hxi hyi
  have hk : ∀ j, Below (Oid.part o j) (.user n) := fun j => .part j ho
  rcases ha.nodes x i hx hxi with h1 | h1 <;> rcases hb.nodes y i hy hyi with h2 | h2
  · exact hco x y i h1 h2 hxi hyi
  · exact absurd h2 (ht.not_deep h1 hxi (hk l))
  · exact absurd h1 (hu.not_deep h2 hyi (hk k))
  · exact absurd (part_apart h1 h2) hkl

/-! ## The generic type of a value -/

theorem gen_range : {t : Ty} → Gen t → Every rangeNode t
  | .sizedArr _ e _ _, h => .mk trivial fun c hc => by
      rw [parts, List.mem_singleton] at hc; rw [hc]; exact gen_range (t := e) h
  | .sizedMap _ k v _ _, h => .mk trivial fun c hc => by
      simp only [parts, List.mem_cons, List.not_mem_nil, or_false] at hc
      rcases hc with hc | hc
      · rw [hc]; exact gen_range (t := k) h.1
      · rw [hc]; exact gen_range (t := v) h.2
  | .sens _ e, h => .mk trivial fun c hc => by
      rw [parts, List.mem_singleton] at hc; rw [hc]; exact gen_range (t := e) h
  | .any, _ | .nilT, _ | .boolT, _ | .intT, _ | .floatT, _ | .strT, _ | .regexpT, _ | .timeT, _ | .mapT, _ | .exact (.bin _), _ => .leaf trivial rfl

theorem genericOf_GI (o : Oid) (t : Ty) {v : Val} (hv : Value.WF v) : GI o t (genericOf o v) := by
  have h := genericOf_gen o v
  exact ⟨h.gen.simple, gen_range h.gen, genericOf_Ok o v hv, h.tree, (genericOf_ok o v).acyc,
    fun x i hx hi => .inr (h.below i (hx.occ (occ_deep hi))), fun x hx => .inr (h.below x hx)⟩

theorem generic_has (o : Oid) {v w : Val} (hv : Value.WF v) (hf : Fits v) (hw : Value.WF w) (h : eq v w = true) : has E (genericOf o v) w = true := by
  rw [← has_congr (genericOf_Ok o v hv) hv hw h]
  exact has_genericOf E o v hv hf

theorem generic_incl (o p : Oid) {v : Val} (hs : ∀ x, v ≠ .sens x) (hv : Value.WF v) (hf : Fits v) : Incl E (typeOf p v) (genericOf o v) := by
  intro w hw _ hh
  rw [has_typeOf_eq p hs] at hh
  exact generic_has o hv hf hw hh

/-! ## Lists of generic types -/

def Infos (E : Env) (o : Oid) : List Ty → List Ty → Prop
  | [], [] => True
  | t :: ts, g :: gs => (GI (.part o ts.length) t g ∧ Incl E t g) ∧ Infos E o ts gs
  | _, _ => False

theorem Infos.pair {o : Oid} : ∀ {ts gs : List Ty}, Infos E o ts gs → ∀ p ∈ ts.zip gs, p.1 ∈ ts ∧ p.2 ∈ gs ∧ Incl E p.1 p.2
  | [], [], _, p, hp => by cases hp
  | t :: ts, g :: gs, h, p, hp => by
    rw [List.zip_cons_cons] at hp
    rcases List.mem_cons.1 hp with rfl | hp
    · exact ⟨by simp, by simp, h.1.2⟩
    · have := Infos.pair h.2 p hp
      exact ⟨by simp [this.1], by simp [this.2.1], this.2.2⟩

theorem Infos.of_left {o : Oid} : ∀ {ts gs : List Ty}, Infos E o ts gs → ∀ t ∈ ts, ∃ g, (t, g) ∈ ts.zip gs
  | [], [], _, t, ht => by cases ht
  | t :: ts, g :: gs, h, x, hx => by
    rw [List.zip_cons_cons]
    rcases List.mem_cons.1 hx with rfl | hx
    · exact ⟨g, by simp⟩
    · obtain ⟨y, hy⟩ := Infos.of_left h.2 x hx
      exact ⟨y, by simp [hy]⟩

theorem Infos.of_right {o : Oid} : ∀ {ts gs : List Ty}, Infos E o ts gs → ∀ g ∈ gs, ∃ k < ts.length, ∃ t ∈ ts, GI (.part o k) t g ∧ Incl E t g
  | [], [], _, t, ht => by cases ht
  | t :: ts, g :: gs, h, x, hx => by
    rcases List.mem_cons.1 hx with rfl | hx
    · exact ⟨ts.length, by simp, t, by simp, h.1⟩
    · obtain ⟨k, hk, u, hu, h'⟩ := Infos.of_right h.2 x hx
      exact ⟨k, by simp only [List.length_cons]; omega, u, by simp [hu], h'⟩

theorem common_gi {n : Nat} {o : Oid} (ho : Below o (.user n)) {k0 : Nat} {t0 g0 : Ty} {gs : List Ty} (h0 : GI (.part o k0) t0 g0) (h1 : Old n t0)
    (hs : ∀ g ∈ gs, ∃ k, k ≠ k0 ∧ ∃ t, GI (.part o k) t g ∧ Old n t ∧ Coherent t0 t) :
    ∃ c, commonGen E (g0 :: gs) = some c ∧ GI (.part o k0) t0 c ∧ ∀ g ∈ g0 :: gs, Incl E g c := by
  rw [commonGen]
  by_cases hc : gs.all (assignable E g0) = true
  · rw [if_pos hc]
    refine ⟨g0, rfl, h0, fun g hg => ?_⟩
    rcases List.mem_cons.1 hg with rfl | hg
    · exact .refl _
    · obtain ⟨k, hk, t, hgi, ho', hco⟩ := hs g hg
      exact h0.incl ho hk.symm hgi h1 ho' hco (List.all_eq_true.1 hc g hg)
  · rw [if_neg hc]
    exact ⟨.any, rfl, .any, fun g _ v _ _ _ => by simp [has, hasP]⟩

theorem Infos.common {n : Nat} {o : Oid} (ho : Below o (.user n)) {ts gs : List Ty} (h : Infos E o ts gs) (hne : ts ≠ []) (hold : ∀ t ∈ ts, Old n t)
    (hco : ∀ t ∈ ts, ∀ u ∈ ts, Coherent t u) {ks : List Ty} (hk : ∃ g r, gs = g :: r ∧ ∃ r', ks = g :: r' ∧ ∀ x ∈ r', x ∈ r) :
    ∃ c k, ∃ t ∈ ts, commonGen E ks = some c ∧ GI (.part o k) t c ∧ ∀ g ∈ ks, Incl E g c := by
  obtain ⟨g, r, rfl, r', rfl, hsub⟩ := hk
  cases ts with
  | nil => exact absurd rfl hne
  | cons t ts =>
    obtain ⟨c, h1, h2, h3⟩ := common_gi (E := E) ho (gs := r') h.1.1 (hold t (by simp)) (by
      intro x hx
      obtain ⟨k, hk, u, hu, hgi, _⟩ := Infos.of_right h.2 x (hsub x hx)
      exact ⟨k, by omega, u, hgi, hold u (by simp [hu]), hco t (by simp) u (by simp [hu])⟩)
    exact ⟨c, _, t, by simp, h1, h2, h3⟩

theorem uniqueOf_sub : ∀ {ps : List (Ty × Ty)} {u : List Ty}, ∀ x ∈ uniqueOf E u ps, ∃ p ∈ ps, p.2 = x
  | [], u, x, hx => by simp [uniqueOf] at hx
  | (t, b) :: r, u, x, hx => by
    rw [uniqueOf] at hx
    split at hx
    · obtain ⟨p, hp, h⟩ := uniqueOf_sub x hx; exact ⟨p, by simp [hp], h⟩
    · rcases List.mem_cons.1 hx with rfl | hx
      · exact ⟨(t, x), by simp, rfl⟩
      · obtain ⟨p, hp, h⟩ := uniqueOf_sub x hx; exact ⟨p, by simp [hp], h⟩

theorem uniqueOf_covers : ∀ {ps : List (Ty × Ty)} {u : List Ty}, ∀ p ∈ ps, (∃ x ∈ u, p.1.equals x = true) ∨
    ∃ p' ∈ ps, p'.2 ∈ uniqueOf E u ps ∧ (p' = p ∨ p.1.equals p'.1 = true)
  | [], u, p, hp => by cases hp
  | (t, b) :: r, u, p, hp => by
    rw [uniqueOf]
    split
    · rename_i hc
      rcases List.mem_cons.1 hp with rfl | hp
      · obtain ⟨x, hx, h⟩ := List.any_eq_true.1 hc
        rw [Bool.and_eq_true] at h
        exact .inl ⟨x, hx, h.2⟩
      · rcases uniqueOf_covers (u := u) p hp with h | ⟨p', h1, h2, h3⟩
        · exact .inl h
        · exact .inr ⟨p', by simp [h1], h2, h3⟩
    · rcases List.mem_cons.1 hp with rfl | hp
      · exact .inr ⟨(t, b), by simp, by simp, .inl rfl⟩
      · rcases uniqueOf_covers (u := t :: u) p hp with ⟨x, hx, h⟩ | ⟨p', h1, h2, h3⟩
        · rcases List.mem_cons.1 hx with rfl | hx
          · exact .inr ⟨(x, b), by simp, by simp, .inr h⟩
          · exact .inl ⟨x, hx, h⟩
        · exact .inr ⟨p', by simp [h1], by simp [h2], h3⟩

/-! ## Collections -/

theorem isAny_eq {t : Ty} (h : t.isAny = true) : t = .any := by cases t <;> first | rfl | cases h

theorem clamp_full : clampSizes 0 maxInt = (0, maxInt) := by simp [clampSizes, maxInt]

theorem arr_gi {n : Nat} {o : Oid} (ho : Below o (.user n)) {k : Nat} {t c : Ty} (h : GI (.part o k) t c) (hold : Old n t) :
    ∃ r, newArrayType o c 0 maxInt = some r ∧ GI o t r ∧ ∀ vs, len vs ≤ maxInt → (∀ x ∈ vs, has E c x = true) → has E r (.arr vs) = true := by
  rw [newArrayType, clamp_full]
  dsimp only
  by_cases hc : c.isAny = true
  · rw [if_pos ⟨rfl, rfl, hc⟩]
    exact ⟨.arrT, rfl, .leaf trivial trivial trivial trivial rfl rfl (by simp [Ty.occ]), fun vs _ _ => by simp [has, hasP]⟩
  · rw [if_neg (by simp [hc]), if_neg (by simp)]
    have hx : ∀ x, c.occ x → ¬ Below o x := by
      intro x hx
      rcases h.occ x hx with h1 | h1
      · exact hold.not_below ho h1
      · exact above_not_part h1
    refine ⟨_, rfl, ⟨h.simple, .mk trivial ?_, h.ok, .mk ?_ ?_, ?_, ?_, ?_⟩, ?_⟩
    · intro d hd
      simp only [parts, List.mem_singleton] at hd; subst hd; exact h.range
    · intro o' ho' d hd x hx'
      cases ho'
      simp only [parts, List.mem_singleton] at hd; subst hd
      exact ⟨hx x hx', by simp [isTupleStruct]⟩
    · intro d hd
      simp only [parts, List.mem_singleton] at hd; subst hd; exact h.tree
    · rw [Ty.Acyc]; exact ⟨fun h' => hx o h' (.refl o), h.acyc⟩
    · intro x i hx hi
      cases hx with
      | refl => cases hi; exact .inr (.refl o)
      | part hc hy =>
        simp only [parts, List.mem_singleton] at hc; subst hc
        exact (h.nodes x i hy hi).imp_right fun h => (below_part_ne h).1
    · intro x hx
      rw [Ty.occ] at hx
      rcases hx with rfl | hx
      · exact .inr (.refl _)
      · exact (h.occ x hx).imp_right fun h => (below_part_ne h).1
    · intro vs h1 h2
      rw [has_sizedArr]
      exact ⟨vs, rfl, by simp [len], h1, h2⟩

theorem map_gi {n : Nat} {o : Oid} (ho : Below o (.user n)) {k l : Nat} {t c d : Ty} (h : GI (.part o k) t c) (h' : GI (.part o l) t d) (hold : Old n t) :
    GI o t (newMapType o c d 0 maxInt) ∧ ∀ es, len es ≤ maxInt → (∀ e ∈ es, has E c e.1 = true ∧ has E d e.2 = true) →
      has E (newMapType o c d 0 maxInt) (.map es) = true := by
  rw [newMapType, clamp_full]
  dsimp only
  by_cases hc : c.isAny = true ∧ d.isAny = true
  · rw [if_pos ⟨rfl, rfl, hc.1, hc.2⟩]
    exact ⟨.leaf trivial trivial trivial trivial rfl rfl (by simp [Ty.occ]), fun es _ _ => by simp [has, hasP]⟩
  · rw [if_neg (fun hx => hc hx.2.2)]
    have hx : ∀ x, c.occ x ∨ d.occ x → ¬ Below o x := by
      rintro x (hx | hx)
      · rcases h.occ x hx with h1 | h1
        · exact hold.not_below ho h1
        · exact above_not_part h1
      · rcases h'.occ x hx with h1 | h1
        · exact hold.not_below ho h1
        · exact above_not_part h1
    refine ⟨⟨⟨h.simple, h'.simple⟩, .mk trivial ?_, ⟨h.ok, h'.ok⟩, .mk ?_ ?_, ?_, ?_, ?_⟩, ?_⟩
    · intro e he
      simp only [parts, List.mem_cons, List.not_mem_nil, or_false] at he
      rcases he with rfl | rfl
      exacts [h.range, h'.range]
    · intro o' ho' e he x hx'
      cases ho'
      simp only [parts, List.mem_cons, List.not_mem_nil, or_false] at he
      refine ⟨hx x ?_, by simp [isTupleStruct]⟩
      rcases he with rfl | rfl
      exacts [.inl hx', .inr hx']
    · intro e he
      simp only [parts, List.mem_cons, List.not_mem_nil, or_false] at he
      rcases he with rfl | rfl
      exacts [h.tree, h'.tree]
    · rw [Ty.Acyc]; exact ⟨fun h' => hx o (.inl h') (.refl o), fun h' => hx o (.inr h') (.refl o), h.acyc, h'.acyc⟩
    · intro x i hx hi
      cases hx with
      | refl => cases hi; exact .inr (.refl o)
      | part hc hy =>
        simp only [parts, List.mem_cons, List.not_mem_nil, or_false] at hc
        rcases hc with rfl | rfl
        · exact (h.nodes x i hy hi).imp_right fun h => (below_part_ne h).1
        · exact (h'.nodes x i hy hi).imp_right fun h => (below_part_ne h).1
    · intro x hx
      rw [Ty.occ] at hx
      rcases hx with rfl | hx | hx
      · exact .inr (.refl _)
      · exact (h.occ x hx).imp_right fun h => (below_part_ne h).1
      · exact (h'.occ x hx).imp_right fun h => (below_part_ne h).1
    · intro es h1 h2
      rw [has_sizedMap]
      exact ⟨es, rfl, by simp [len], h1, h2⟩

/-! ## All types -/

theorem PlainAll_iff {ts : List Ty} : PlainAll ts ↔ ∀ t ∈ ts, Plain t := by
  induction ts with
  | nil => simp [PlainAll]
  | cons t ts ih => simp [PlainAll, ih]

theorem PlainFields_iff {fs : List (Val × Bool × Ty)} : PlainFields fs ↔ ∀ f ∈ fs, Plain f.2.2 := by
  induction fs with
  | nil => simp [PlainFields]
  | cons f fs ih => obtain ⟨k, rq, t⟩ := f; simp [PlainFields, ih]

theorem plain_eqNode_aux : ∀ (n : Nat) (t : Ty), t.depth < n → Plain t → Every eqNode t
  | 0, _, h, _ => by omega
  | n + 1, t, h, hp => by
    have simp' : Simple t → Every rangeNode t → Every eqNode t := fun h1 h2 => simple_every h1 (fun x hx _ => by
      cases x <;> first | exact hx.elim | trivial) h2
    have kids : ∀ c ∈ parts t, Plain c → Every eqNode c := fun c hc hp => plain_eqNode_aux n c (by have := part_depth hc; omega) hp
    cases t <;> first | exact simp' hp.1 hp.2 | skip
    case exact v => exact .leaf trivial rfl
    case exactD o v => exact .leaf hp.2 rfl
    case tuple o ts var => exact .mk trivial fun c hc => kids c hc (PlainAll_iff.1 hp.1 c hc)
    case struct o add fs =>
      refine .mk trivial fun c hc => kids c hc ?_
      simp only [parts, List.mem_map] at hc
      obtain ⟨f, hf, rfl⟩ := hc
      exact PlainFields_iff.1 hp.2.2.2 f hf
    case allOf o ts => exact .mk trivial fun c hc => kids c hc (PlainAll_iff.1 hp.2 c hc)
    case allOfVal o vs => exact .leaf (fun v hv => (hp.2 v hv).1) rfl

theorem plain_eqNode {t : Ty} (h : Plain t) : Every eqNode t := plain_eqNode_aux (t.depth + 1) t (by omega) h

theorem simple_gi {o : Oid} {t : Ty} (h : Simple t) (hr : Every rangeNode t) (ho : t.Ok) (ha : t.Acyc) (hm : Made t) : GI o t t :=
  ⟨h, hr, ho, tree_of_made hm ha, ha, fun x i hx _ => .inl hx, fun x hx => .inl hx⟩

theorem value_infos {n : Nat} {o : Oid} (ho : Below o (.user n)) (t : Ty) (hold : Old n t) (hco : Coherent t t) {vs : List Val} (hne : vs ≠ [])
    (hv : ∀ v ∈ vs, NoSens v ∧ Fits v ∧ Value.WF v) :
    ∃ c k, commonGen E (genericsOf o vs) = some c ∧ GI (.part o k) t c ∧ ∀ v ∈ vs, ∀ w, Value.WF w → Fits w → eq v w = true → has E c w = true := by
  cases vs with
  | nil => exact absurd rfl hne
  | cons v vs =>
    rw [genericsOf]
    have hmem : ∀ ws : List Val, (∀ w ∈ ws, Value.WF w) → ∀ g ∈ genericsOf o ws, ∃ k < ws.length, GI (.part o k) t g := by
      intro ws
      induction ws with
      | nil => intro _ g hg; simp [genericsOf] at hg
      | cons w ws ih =>
        intro hw g hg
        rw [genericsOf] at hg
        rcases List.mem_cons.1 hg with rfl | hg
        · exact ⟨ws.length, by simp, genericOf_GI _ _ (hw w (by simp))⟩
        · obtain ⟨k, hk, h⟩ := ih (fun x hx => hw x (by simp [hx])) g hg
          exact ⟨k, by simp only [List.length_cons]; omega, h⟩
    have hval : ∀ ws : List Val, ∀ w ∈ ws, ∃ k, genericOf (.part o k) w ∈ genericsOf o ws := by
      intro ws
      induction ws with
      | nil => intro w hw; cases hw
      | cons x ws ih =>
        intro w hw
        rw [genericsOf]
        rcases List.mem_cons.1 hw with rfl | hw
        · exact ⟨_, List.mem_cons_self⟩
        · obtain ⟨k, h⟩ := ih w hw; exact ⟨k, by simp [h]⟩
    obtain ⟨c, h1, h2, h3⟩ := common_gi (E := E) ho (genericOf_GI (.part o vs.length) t (hv v (by simp)).2.2) hold (gs := genericsOf o vs) (by
      intro g hg
      obtain ⟨k, hk, h⟩ := hmem vs (fun w hw => (hv w (by simp [hw])).2.2) g hg
      exact ⟨k, by omega, t, h, hold, hco⟩)
    refine ⟨c, _, h1, h2, fun x hx w hw hfw he => ?_⟩
    obtain ⟨k, hk⟩ := hval (v :: vs) x hx
    obtain ⟨h4, h5, h6⟩ := hv x hx
    exact h3 _ hk w hw hfw (generic_has _ h6 h5 hw he)

theorem struct_entries {o : Oid} {fs : List (Val × Bool × Ty)} (hok : OkFields fs) (hd : DistinctKeys fs) {v : Val} (hv : Value.WF v)
    (hh : has E (.struct o false fs) v = true) : ∃ es, v = .map es ∧ ∀ x ∈ es, ∃ f ∈ fs, eq f.1 x.1 = true ∧ has E f.2.2 x.2 = true := by
  have hok := OkFields_iff.1 hok
  cases v with
  | map es =>
    have hv' := WF_map hv
    have hd' : DistinctKeys es := by rw [Value.WF] at hv; exact hv.2
    rw [has_struct (fun f hf => (hok f hf).2.1) (fun e he => (hv' e he).1) hd hd'] at hh
    obtain ⟨h1, h2⟩ := hh
    have h2 : ∀ e ∈ es, hasEntry fs e.1 = true := by simpa using h2
    refine ⟨es, rfl, fun x hx => ?_⟩
    have := h2 x hx
    rw [hasEntry, List.any_eq_true] at this
    obtain ⟨f, hf', hfe⟩ := this
    refine ⟨f, hf', hfe, ?_⟩
    have hg := (mapGet_some_iff (fun e he => (hv' e he).1) hd' (v := x.2) (hok f hf').2.1).2 ⟨x, hx, hfe, rfl⟩
    exact (h1 f hf').2 _ hg
  | _ => simp [has, hasP] at hh

mutual
theorem generic_info {n : Nat} : (t : Ty) → Plain t → t.Ok → t.Acyc → Old n t → Coherent t t → (o : Oid) → Below o (.user n) →
    ∃ g, generic E o t = some g ∧ GI o t g ∧ Incl E t g
  | .exact v, hp, hk, ha, hold, hco, o, ho => by
    rw [generic]
    refine ⟨_, rfl, genericOf_GI o _ hk.2, fun w hw _ hh => ?_⟩
    simp only [has, hasP] at hh
    exact generic_has o hk.2 hp hw hh
  | .exactD p v, hp, hk, ha, hold, hco, o, ho => by
    rw [generic]
    refine ⟨_, rfl, genericOf_GI o _ hk.2, fun w hw _ hh => ?_⟩
    simp only [has, hasP] at hh
    exact generic_has o hk.2 hp.1 hw hh
  | .pattern rx, hp, hk, ha, hold, hco, o, ho => by
    rw [generic]
    refine ⟨_, rfl, .leaf trivial trivial trivial trivial rfl rfl (by simp [Ty.occ]), fun w hw _ hh => ?_⟩
    cases w <;> simp [has, hasP] at hh ⊢
  | .tuple p ts var, hp, hk, ha, hold, hco, o, ho => by
    have hpt : ∀ t ∈ ts, t ∈ parts (.tuple p ts var) := fun t ht => ht
    obtain ⟨gs, e1, hi⟩ := generics_info ts hp.1 hk ha.2 (fun t ht => hold.node (.of_part (hpt t ht)))
      (fun t ht u hu => hco.mono (.of_part (hpt t ht)) (.of_part (hpt u hu))) o ho
    have hin : ∀ v, has E (.tuple p ts var) v = true → ∃ vs, v = .arr vs ∧ ∀ x ∈ vs, ∃ t ∈ ts, has E t x = true := by
      intro v hh
      rw [has_tuple_at hp.2.1] at hh
      obtain ⟨vs, rfl, _, h2⟩ := hh
      refine ⟨vs, rfl, fun x hx => ?_⟩
      obtain ⟨i, hi⟩ := List.getElem?_of_mem hx
      obtain ⟨t, ht, hh⟩ := h2 i x hi
      exact ⟨t, elemAt_mem ht, hh⟩
    rw [generic.eq_def]
    dsimp only
    rw [e1]
    cases ts with
    | nil =>
      dsimp only
      rw [newArrayType, clamp_full]
      refine ⟨.arrT, rfl, .leaf trivial trivial trivial trivial rfl rfl (by simp [Ty.occ]), fun v hv hf hh => ?_⟩
      obtain ⟨vs, rfl, _⟩ := hin v hh
      simp [has, hasP]
    | cons t ts =>
      dsimp only
      cases gs with
      | nil => exact hi.elim
      | cons g gs =>
        obtain ⟨c, k, u, hu, h1, h2, h3⟩ := Infos.common (E := E) ho hi (by simp) (fun t ht => hold.node (.of_part (hpt t ht)))
          (fun t ht u hu => hco.mono (.of_part (hpt t ht)) (.of_part (hpt u hu))) (ks := uniqueOf E [] ((t :: ts).zip (g :: gs)))
          ⟨g, gs, rfl, uniqueOf E [t] (ts.zip gs), by simp [uniqueOf], fun x hx => by
            obtain ⟨q, hq, rfl⟩ := uniqueOf_sub x hx
            exact (Infos.pair hi.2 q hq).2.1⟩
        obtain ⟨r, h4, h5, h6⟩ := arr_gi (E := E) ho h2 (hold.node (.of_part (hpt u hu)))
        rw [h1]
        refine ⟨r, h4, h5.mono (.of_part (hpt u hu)) (.refl _), fun v hv hf hh => ?_⟩
        obtain ⟨vs, rfl, hvs⟩ := hin v hh
        rw [Fits, FitsAll_iff] at hf
        rw [Value.WF, WFs_iff] at hv
        refine h6 vs hf.1 fun x hx => ?_
        obtain ⟨t', ht', hx'⟩ := hvs x hx
        obtain ⟨g', hg'⟩ := hi.of_left t' ht'
        have hokk := Oks_iff.1 (show Oks (t :: ts) from hk)
        have hac := Acycs_iff.1 ha.2
        have eqc : ∀ y ∈ t :: ts, EqCond y := fun y hy =>
          ⟨tree_of_made (Every.part hold.made (hpt y hy)) (hac y hy), hokk y hy, plain_eqNode (PlainAll_iff.1 hp.1 y hy)⟩
        rcases uniqueOf_covers (E := E) (u := []) _ hg' with ⟨x, hx, _⟩ | ⟨q, hq, hqk, hqe⟩
        · cases hx
        · have hqi := Infos.pair hi q hq
          refine h3 _ hqk x (hv x hx) (hf.2 x hx) (hqi.2.2 x (hv x hx) (hf.2 x hx) ?_)
          rcases hqe with rfl | hqe
          · exact hx'
          · rcases pairwise_cases (fun a b h => h.elim (fun e => .inl e.symm) fun h => .inr h.symm) hp.2.2 ht' hqi.1 with he | he | hap
            · rw [← he]; exact hx'
            · rw [← he]; exact hx'
            · rw [← tyEq_sound _ [] t' q.1 (eqc t' ht') (eqc q.1 hqi.1) hap (by simp) hqe x (hv x hx)]; exact hx'
  | .struct p add fs, hp, hk, ha, hold, hco, o, ho => by
    obtain ⟨rfl, hd, hkeys, hpf⟩ := hp
    have hpt : ∀ f ∈ fs, f.2.2 ∈ parts (.struct p false fs) := fun f hf => by simp only [parts, List.mem_map]; exact ⟨f, hf, rfl⟩
    have ho1 : Below (.part o 1) (.user n) := .part 1 ho
    have ho0 : Below (.part o 0) (.user n) := .part 0 ho
    obtain ⟨gs, e1, hi⟩ := fields_info fs hpf hk ha.2 (fun f hf => hold.node (.of_part (hpt f hf)))
      (fun f hf f' hf' => hco.mono (.of_part (hpt f hf)) (.of_part (hpt f' hf'))) (.part o 1) ho1
    have hin := fun v hv hh => struct_entries (E := E) (o := p) (v := v) hk hd hv hh
    have hok := OkFields_iff.1 hk
    rw [generic.eq_def]
    dsimp only
    rw [e1]
    cases fs with
    | nil =>
      dsimp only
      refine ⟨_, rfl, (map_gi (E := E) (k := 0) (l := 0) ho .any .any hold).1, fun v hv hf hh => ?_⟩
      obtain ⟨es, rfl, _⟩ := hin v hv hh
      rw [Fits] at hf
      exact (map_gi (E := E) (k := 0) (l := 0) ho .any .any hold).2 es hf.1 fun e _ => by simp [has, hasP]
    | cons f fs =>
      cases gs with
      | nil => exact hi.elim
      | cons g gs =>
        obtain ⟨d, l, u, hu, h1, h2, h3⟩ := Infos.common (E := E) ho1 hi (by simp) (fun t ht => by
            obtain ⟨f', hf', rfl⟩ := List.mem_map.1 ht
            exact hold.node (.of_part (hpt f' hf')))
          (fun t ht u hu => by
            obtain ⟨f', hf', rfl⟩ := List.mem_map.1 ht
            obtain ⟨f'', hf'', rfl⟩ := List.mem_map.1 hu
            exact hco.mono (.of_part (hpt f' hf')) (.of_part (hpt f'' hf''))) (ks := g :: gs) ⟨g, gs, rfl, gs, rfl, fun _ h => h⟩
        obtain ⟨c, k, h4, h5, h6⟩ := value_infos (E := E) ho0 (.struct p false (f :: fs)) hold hco (vs := (f :: fs).map (·.1)) (by simp) (fun v hv => by
            obtain ⟨f', hf', rfl⟩ := List.mem_map.1 hv
            exact ⟨(hkeys f' hf').1, (hkeys f' hf').2, (hok f' hf').2.1⟩)
        obtain ⟨f', hf', rfl⟩ := List.mem_map.1 hu
        have h2' := h2.mono (.of_part (hpt f' hf')) (.part l (.refl (.part o 1)))
        have h5' := h5.mono .refl (.part k (.refl (.part o 0)))
        obtain ⟨h7, h8⟩ := map_gi (E := E) ho h5' h2' hold
        dsimp only
        rw [h4, h1]
        refine ⟨_, rfl, h7, fun v hv hf hh => ?_⟩
        obtain ⟨es, rfl, hes⟩ := hin v hv hh
        have hv' := WF_map hv
        rw [Fits, FitsEntries_iff] at hf
        refine h8 es hf.1 fun e he => ?_
        obtain ⟨f1, hf1, he1, he2⟩ := hes e he
        refine ⟨h6 _ (List.mem_map_of_mem hf1) e.1 (hv' e he).1 (hf.2 e he).1 he1, ?_⟩
        obtain ⟨y, hy⟩ := hi.of_left f1.2.2 (List.mem_map_of_mem hf1)
        have hyi := Infos.pair hi _ hy
        exact h3 y hyi.2.1 e.2 (hv' e he).2 (hf.2 e he).2 (hyi.2.2 e.2 (hv' e he).2 (hf.2 e he).2 he2)
  | .allOf p ts, hp, hk, ha, hold, hco, o, ho => by
    have hpt : ∀ t ∈ ts, t ∈ parts (.allOf p ts) := fun t ht => ht
    obtain ⟨gs, e1, hi⟩ := generics_info ts hp.2 hk ha.2 (fun t ht => hold.node (.of_part (hpt t ht)))
      (fun t ht u hu => hco.mono (.of_part (hpt t ht)) (.of_part (hpt u hu))) o ho
    rw [generic, e1]
    cases ts with
    | nil => exact absurd rfl hp.1
    | cons t ts =>
      cases gs with
      | nil => exact hi.elim
      | cons g gs =>
        obtain ⟨c, k, u, hu, h1, h2, h3⟩ := Infos.common (E := E) ho hi (by simp) (fun t ht => hold.node (.of_part (hpt t ht)))
          (fun t ht u hu => hco.mono (.of_part (hpt t ht)) (.of_part (hpt u hu))) (ks := g :: gs) ⟨g, gs, rfl, gs, rfl, fun _ h => h⟩
        refine ⟨c, h1, h2.mono (.of_part (hpt u hu)) (.part k (.refl _)), fun v hv hf hh => ?_⟩
        rw [has_allOf] at hh
        exact h3 g (by simp) v hv hf (hi.1.2 v hv hf (hh t (by simp)))
  | .allOfVal p vs, hp, hk, ha, hold, hco, o, ho => by
    rw [generic]
    have hw := (WFs_iff vs).1 (show WFs vs from hk)
    obtain ⟨c, k, h1, h2, h3⟩ := value_infos (E := E) ho (.allOfVal p vs) hold hco hp.1 fun v hv => ⟨(hp.2 v hv).1, (hp.2 v hv).2, hw v hv⟩
    refine ⟨c, h1, h2.mono .refl (.part k (.refl _)), fun w hww hf hh => ?_⟩
    obtain ⟨v, hv⟩ := List.exists_mem_of_ne_nil vs hp.1
    obtain ⟨j, hj⟩ := mem_typesOf (o := p) hv
    rw [has_allOfVal, List.all_eq_true] at hh
    have := hh _ hj
    rw [has_typeOf_eq _ (hp.2 v hv).1.ne] at this
    exact h3 v hv w hww hf this
  | .any, hp, hk, ha, hold, hco, o, ho | .nilT, hp, hk, ha, hold, hco, o, ho | .boolT, hp, hk, ha, hold, hco, o, ho
  | .intT, hp, hk, ha, hold, hco, o, ho | .floatT, hp, hk, ha, hold, hco, o, ho | .strT, hp, hk, ha, hold, hco, o, ho
  | .regexpT, hp, hk, ha, hold, hco, o, ho | .timeT, hp, hk, ha, hold, hco, o, ho | .arrT, hp, hk, ha, hold, hco, o, ho
  | .mapT, hp, hk, ha, hold, hco, o, ho | .intRange .., hp, hk, ha, hold, hco, o, ho | .floatRange .., hp, hk, ha, hold, hco, o, ho
  | .sizedStr .., hp, hk, ha, hold, hco, o, ho | .ciStr _, hp, hk, ha, hold, hco, o, ho | .bin .., hp, hk, ha, hold, hco, o, ho
  | .sizedArr .., hp, hk, ha, hold, hco, o, ho | .sizedMap .., hp, hk, ha, hold, hco, o, ho | .sens .., hp, hk, ha, hold, hco, o, ho => by
    rw [generic.eq_def]
    exact ⟨_, rfl, simple_gi hp.1 hp.2 hk ha hold.made, .refl _⟩
  | .anyOf .., hp, _, _, _, _, _, _ | .oneOf .., hp, _, _, _, _, _, _ | .not _, hp, _, _, _, _, _, _ | .metaT _, hp, _, _, _, _, _, _
  | .metaMeta, hp, _, _, _, _, _, _ => hp.1.elim

theorem generics_info {n : Nat} : (ts : List Ty) → PlainAll ts → Oks ts → Acycs ts → (∀ t ∈ ts, Old n t) → (∀ t ∈ ts, ∀ u ∈ ts, Coherent t u) →
    (o : Oid) → Below o (.user n) → ∃ gs, generics E o ts = some gs ∧ Infos E o ts gs
  | [], _, _, _, _, _, o, _ => ⟨[], by rw [generics], trivial⟩
  | t :: ts, hp, hk, ha, hold, hco, o, ho => by
    obtain ⟨g, e1, h1, h2⟩ := generic_info t hp.1 hk.1 ha.1 (hold t (by simp)) (hco t (by simp) t (by simp)) (.part o ts.length) (.part _ ho)
    obtain ⟨gs, e2, h3⟩ := generics_info ts hp.2 hk.2 ha.2 (fun t ht => hold t (by simp [ht])) (fun t ht u hu => hco t (by simp [ht]) u (by simp [hu])) o ho
    exact ⟨g :: gs, by rw [generics, e1, e2], ⟨h1, h2⟩, h3⟩

theorem fields_info {n : Nat} : (fs : List (Val × Bool × Ty)) → PlainFields fs → OkFields fs → AcycFields fs → (∀ f ∈ fs, Old n f.2.2) →
    (∀ f ∈ fs, ∀ f' ∈ fs, Coherent f.2.2 f'.2.2) → (o : Oid) → Below o (.user n) →
    ∃ gs, genericFields E o fs = some gs ∧ Infos E o (fs.map (·.2.2)) gs
  | [], _, _, _, _, _, o, _ => ⟨[], by rw [genericFields], trivial⟩
  | (k, rq, t) :: fs, hp, hk, ha, hold, hco, o, ho => by
    obtain ⟨g, e1, h1, h2⟩ := generic_info t hp.1 hk.2.2.1 ha.1 (hold (k, rq, t) (by simp)) (hco (k, rq, t) (by simp) (k, rq, t) (by simp))
      (.part o fs.length) (.part _ ho)
    obtain ⟨gs, e2, h3⟩ := fields_info fs hp.2 hk.2.2.2 ha.2 (fun t ht => hold t (by simp [ht])) (fun t ht u hu => hco t (by simp [ht]) u (by simp [hu])) o ho
    exact ⟨g :: gs, by rw [genericFields, e1, e2], ⟨by simpa using h1, h2⟩, h3⟩
end

end Verif.Types
