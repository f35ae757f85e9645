import Verif.Types.AssignFuel
import Verif.Types.Congr
/-!
# Parts of types and the identities in them
-/
set_option autoImplicit false
set_option linter.unusedVariables false
set_option linter.unusedSimpArgs false
namespace Verif.Types
open Verif.Value

/-- The types that a type is made of -/
def parts : Ty → List Ty
  | .sizedArr _ e _ _ => [e]
  | .tuple _ ts _ => ts
  | .sizedMap _ k v _ _ => [k, v]
  | .struct _ _ fs => fs.map (·.2.2)
  | .allOf _ ts => ts
  | .anyOf _ ts => ts
  | .oneOf _ ts => ts
  | .not t => [t]
  | .sens _ t => [t]
  | .metaT t => [t]
  | _ => []

/-- `p` holds of the type, of its parts, of their parts and so on. -/
inductive Every (p : Ty → Prop) : Ty → Prop where
  | mk {t : Ty} (h : p t) (hs : ∀ c ∈ parts t, Every p c) : Every p t

theorem Every.here {p : Ty → Prop} {t : Ty} : Every p t → p t
  | .mk h _ => h

theorem Every.part {p : Ty → Prop} {t c : Ty} : Every p t → c ∈ parts t → Every p c
  | .mk _ h, hc => h c hc

theorem Every.mono {p q : Ty → Prop} (hpq : ∀ t, p t → q t) {t : Ty} (h : Every p t) : Every q t := by
  induction h with
  | mk h _ ih => exact .mk (hpq _ h) ih

theorem Every.and {p q : Ty → Prop} {t : Ty} (h : Every p t) (h' : Every q t) : Every (fun t => p t ∧ q t) t := by
  induction h with
  | mk h hs ih => exact .mk ⟨h, h'.here⟩ fun c hc => ih c hc (h'.part hc)

theorem part_Acyc {t c : Ty} (ha : t.Acyc) (hc : c ∈ parts t) : c.Acyc := by
  cases t <;> simp only [parts, List.not_mem_nil, List.mem_cons, or_false, List.mem_map] at hc <;> rw [Ty.Acyc] at ha
  case sizedArr => subst hc; exact ha.2
  case tuple => exact Acycs_iff.1 ha.2 c hc
  case sizedMap => rcases hc with rfl | rfl; exact ha.2.2.1; exact ha.2.2.2
  case struct => obtain ⟨f, hf, rfl⟩ := hc; exact AcycFields_iff.1 ha.2 f hf
  case allOf => exact Acycs_iff.1 ha.2 c hc
  case anyOf => exact Acycs_iff.1 ha.2 c hc
  case oneOf => exact Acycs_iff.1 ha.2 c hc
  case not => subst hc; exact ha
  case sens => subst hc; exact ha.2
  case metaT => subst hc; exact ha

theorem part_Ok {t c : Ty} (ha : t.Ok) (hc : c ∈ parts t) : c.Ok := by
  cases t <;> simp only [parts, List.not_mem_nil, List.mem_cons, or_false, List.mem_map] at hc <;> rw [Ty.Ok] at ha
  case sizedArr => subst hc; exact ha
  case tuple => exact Oks_iff.1 ha c hc
  case sizedMap => rcases hc with rfl | rfl; exact ha.1; exact ha.2
  case struct => obtain ⟨f, hf, rfl⟩ := hc; exact (OkFields_iff.1 ha f hf).2.2
  case allOf => exact Oks_iff.1 ha c hc
  case anyOf => exact Oks_iff.1 ha c hc
  case oneOf => exact Oks_iff.1 ha c hc
  case not => subst hc; exact ha
  case sens => subst hc; exact ha
  case metaT => subst hc; exact ha

theorem part_depth {t c : Ty} (hc : c ∈ parts t) : c.depth < t.depth := by
  cases t <;> simp only [parts, List.not_mem_nil, List.mem_cons, or_false, List.mem_map] at hc <;> simp only [Ty.depth]
  case sizedArr => subst hc; omega
  case tuple => have := depth_le_depths hc; omega
  case sizedMap => rcases hc with rfl | rfl <;> omega
  case struct => obtain ⟨f, hf, rfl⟩ := hc; have := depth_le_depthFields hf; omega
  case allOf => have := depth_le_depths hc; omega
  case anyOf => have := depth_le_depths hc; omega
  case oneOf => have := depth_le_depths hc; omega
  case not => subst hc; omega
  case sens => subst hc; omega
  case metaT => subst hc; omega

theorem part_occ {t c : Ty} (hc : c ∈ parts t) {o : Oid} (h : c.occ o) : t.occ o := by
  cases t <;> simp only [parts, List.not_mem_nil, List.mem_cons, or_false, List.mem_map] at hc <;> simp only [Ty.occ, occs_iff, occFields_iff]
  case sizedArr => subst hc; exact .inr h
  case tuple => exact .inr ⟨c, hc, h⟩
  case sizedMap => rcases hc with rfl | rfl; exact .inr (.inl h); exact .inr (.inr h)
  case struct => obtain ⟨f, hf, rfl⟩ := hc; exact .inr ⟨f, hf, h⟩
  case allOf => exact .inr ⟨c, hc, h⟩
  case anyOf => exact .inr ⟨c, hc, h⟩
  case oneOf => exact .inr ⟨c, hc, h⟩
  case not => subst hc; exact h
  case sens => subst hc; exact .inr h
  case metaT => subst hc; exact h

theorem occ_deep {t : Ty} {o : Oid} (ho : t.deep? = some o) : t.occ o := by
  cases t <;> simp only [Ty.deep?, Option.some.injEq, reduceCtorEq] at ho <;> subst ho <;> simp [Ty.occ, Below.refl]

theorem part_Acyc_occ {t c : Ty} (ha : t.Acyc) (hc : c ∈ parts t) {o : Oid} (ho : t.deep? = some o) : ¬ c.occ o := by
  intro h
  cases t <;> simp only [parts, List.not_mem_nil, List.mem_cons, or_false, List.mem_map] at hc <;> rw [Ty.Acyc] at ha <;>
    simp only [Ty.deep?, Option.some.injEq, reduceCtorEq] at ho <;> subst ho
  case sizedArr => subst hc; exact ha.1 h
  case tuple => exact ha.1 (occs_iff.2 ⟨c, hc, h⟩)
  case sizedMap => rcases hc with rfl | rfl; exact ha.1 h; exact ha.2.1 h
  case struct => obtain ⟨f, hf, rfl⟩ := hc; exact ha.1 (occFields_iff.2 ⟨f, hf, h⟩)
  case allOf => exact ha.1 (occs_iff.2 ⟨c, hc, h⟩)
  case anyOf => exact ha.1 (occs_iff.2 ⟨c, hc, h⟩)
  case oneOf => exact ha.1 (occs_iff.2 ⟨c, hc, h⟩)
  case sens => subst hc; exact ha.1 h

/-! ## Identities, with those made from them -/

/-- The identity, or one that it is made from, is in the type. -/
def Ty.owns (t : Ty) (o : Oid) : Prop := ∃ o', t.occ o' ∧ Below o o'

theorem part_owns {t c : Ty} (hc : c ∈ parts t) {o : Oid} (h : c.owns o) : t.owns o := by
  obtain ⟨o', h1, h2⟩ := h
  exact ⟨o', part_occ hc h1, h2⟩

theorem owns_deep {t : Ty} {o : Oid} (ho : t.deep? = some o) : t.owns o := ⟨o, occ_deep ho, .refl o⟩

/-- No object is in both types. -/
def Apart (a b : Ty) : Prop := ∀ o, a.owns o → ¬ b.owns o

theorem Apart.symm {a b : Ty} (h : Apart a b) : Apart b a := fun o h1 h2 => h o h2 h1

theorem Apart.sub {a b c d : Ty} (h : Apart a b) (h1 : ∀ o, c.owns o → a.owns o) (h2 : ∀ o, d.owns o → b.owns o) : Apart c d :=
  fun o hc hd => h o (h1 o hc) (h2 o hd)

def isTupleStruct : Ty → Bool
  | .tuple .. | .struct .. => true
  | _ => false

def treeNode (t : Ty) : Prop :=
  ∀ o, t.deep? = some o → ∀ c ∈ parts t, ∀ o', c.occ o' → ¬ Below o o' ∧ (isTupleStruct t = true → ¬ Below o' o)

/-- No object is made from a part of it, nor are its parts made from it. -/
def Tree (t : Ty) : Prop := Every treeNode t

theorem Tree.not_owns {t c : Ty} (h : Tree t) (hc : c ∈ parts t) {o : Oid} (ho : t.deep? = some o) : ¬ c.owns o := by
  rintro ⟨o', h1, h2⟩
  exact (h.here o ho c hc o' h1).1 h2

theorem Tree.not_owns_part {t c : Ty} (h : Tree t) (ht : isTupleStruct t = true) (hc : c ∈ parts t) {o : Oid} (ho : t.deep? = some o) {x : Oid}
    (hx : Below x o) : ¬ c.owns x := by
  rintro ⟨o', h1, h2⟩
  have h3 := h.here o ho c hc o' h1
  clear h1 ho
  induction hx with
  | refl => exact h3.1 h2
  | part k hx ih =>
    cases h2 with
    | refl => exact h3.2 ht (.part k hx)
    | part _ h2 => exact ih h2 h3

/-- The objects of the type are numbered by the program. -/
def Made (t : Ty) : Prop := Every (fun t => ∀ o, t.deep? = some o → ∃ n, o = .user n) t

theorem below_user {o : Oid} {n m : Nat} (h : Below o (.user n)) (h' : Below o (.user m)) : n = m := by
  induction o with
  | user k => cases h; cases h'; rfl
  | part o k ih => cases h with | part _ h => cases h' with | part _ h' => exact ih h h'

mutual
theorem occ_made : {t : Ty} → Made t → {o : Oid} → t.occ o → ∃ n, Below o (.user n) ∧ t.occ (.user n)
  | .exactD o' v, hm, o, h => by
    obtain ⟨n, rfl⟩ := hm.here o' rfl
    rw [Ty.occ] at h; subst h; exact ⟨n, .refl _, rfl⟩
  | .sizedArr o' e lo hi, hm, o, h => by
    obtain ⟨n, hn⟩ := hm.here o' rfl
    rw [Ty.occ] at h
    rcases h with rfl | h
    · subst hn; exact ⟨n, .refl _, .inl rfl⟩
    · obtain ⟨n, h1, h2⟩ := occ_made (hm.part (c := e) (by simp [parts])) h
      exact ⟨n, h1, .inr h2⟩
  | .tuple o' ts var, hm, o, h => by
    obtain ⟨n, hn⟩ := hm.here o' rfl
    rw [Ty.occ] at h
    rcases h with rfl | h
    · subst hn; exact ⟨n, .refl _, .inl rfl⟩
    · obtain ⟨n, h1, h2⟩ := occs_made (fun c hc => hm.part (c := c) (by simpa [parts] using hc)) h
      exact ⟨n, h1, .inr h2⟩
  | .sizedMap o' k e lo hi, hm, o, h => by
    obtain ⟨n, hn⟩ := hm.here o' rfl
    rw [Ty.occ] at h
    rcases h with rfl | h | h
    · subst hn; exact ⟨n, .refl _, .inl rfl⟩
    · obtain ⟨n, h1, h2⟩ := occ_made (hm.part (c := k) (by simp [parts])) h
      exact ⟨n, h1, .inr (.inl h2)⟩
    · obtain ⟨n, h1, h2⟩ := occ_made (hm.part (c := e) (by simp [parts])) h
      exact ⟨n, h1, .inr (.inr h2)⟩
  | .struct o' add fs, hm, o, h => by
    obtain ⟨n, hn⟩ := hm.here o' rfl
    rw [Ty.occ] at h
    rcases h with h | h
    · subst hn; exact ⟨n, h, .inl (.refl _)⟩
    · obtain ⟨n, h1, h2⟩ := occFields_made (fun f hf => hm.part (c := f.2.2) (by simp only [parts, List.mem_map]; exact ⟨f, hf, rfl⟩)) h
      exact ⟨n, h1, .inr h2⟩
  | .allOf o' ts, hm, o, h => by
    obtain ⟨n, hn⟩ := hm.here o' rfl
    rw [Ty.occ] at h
    rcases h with rfl | h
    · subst hn; exact ⟨n, .refl _, .inl rfl⟩
    · obtain ⟨n, h1, h2⟩ := occs_made (fun c hc => hm.part (c := c) (by simpa [parts] using hc)) h
      exact ⟨n, h1, .inr h2⟩
  | .allOfVal o' vs, hm, o, h => by
    obtain ⟨n, hn⟩ := hm.here o' rfl
    rw [Ty.occ] at h
    subst hn; exact ⟨n, h, .refl _⟩
  | .anyOf o' ts, hm, o, h => by
    obtain ⟨n, hn⟩ := hm.here o' rfl
    rw [Ty.occ] at h
    rcases h with rfl | h
    · subst hn; exact ⟨n, .refl _, .inl rfl⟩
    · obtain ⟨n, h1, h2⟩ := occs_made (fun c hc => hm.part (c := c) (by simpa [parts] using hc)) h
      exact ⟨n, h1, .inr h2⟩
  | .oneOf o' ts, hm, o, h => by
    obtain ⟨n, hn⟩ := hm.here o' rfl
    rw [Ty.occ] at h
    rcases h with rfl | h
    · subst hn; exact ⟨n, .refl _, .inl rfl⟩
    · obtain ⟨n, h1, h2⟩ := occs_made (fun c hc => hm.part (c := c) (by simpa [parts] using hc)) h
      exact ⟨n, h1, .inr h2⟩
  | .not t, hm, o, h => by
    rw [Ty.occ] at h
    obtain ⟨n, h1, h2⟩ := occ_made (hm.part (c := t) (by simp [parts])) h
    exact ⟨n, h1, by rw [Ty.occ]; exact h2⟩
  | .sens o' t, hm, o, h => by
    obtain ⟨n, hn⟩ := hm.here o' rfl
    rw [Ty.occ] at h
    rcases h with rfl | h
    · subst hn; exact ⟨n, .refl _, .inl rfl⟩
    · obtain ⟨n, h1, h2⟩ := occ_made (hm.part (c := t) (by simp [parts])) h
      exact ⟨n, h1, .inr h2⟩
  | .metaT t, hm, o, h => by
    rw [Ty.occ] at h
    obtain ⟨n, h1, h2⟩ := occ_made (hm.part (c := t) (by simp [parts])) h
    exact ⟨n, h1, by rw [Ty.occ]; exact h2⟩
  | .any, _, _, h | .nilT, _, _, h | .boolT, _, _, h | .intT, _, _, h | .floatT, _, _, h | .strT, _, _, h | .regexpT, _, _, h
  | .timeT, _, _, h | .arrT, _, _, h | .mapT, _, _, h | .exact _, _, _, h | .intRange .., _, _, h | .floatRange .., _, _, h
  | .sizedStr .., _, _, h | .ciStr _, _, _, h | .pattern _, _, _, h | .bin .., _, _, h | .metaMeta, _, _, h => by simp [Ty.occ] at h

theorem occs_made : {ts : List Ty} → (∀ c ∈ ts, Made c) → {o : Oid} → occs o ts → ∃ n, Below o (.user n) ∧ occs (.user n) ts
  | [], _, _, h => by rw [occs] at h; exact h.elim
  | t :: ts, hm, o, h => by
    rw [occs] at h
    rcases h with h | h
    · obtain ⟨n, h1, h2⟩ := occ_made (hm t (by simp)) h
      exact ⟨n, h1, .inl h2⟩
    · obtain ⟨n, h1, h2⟩ := occs_made (fun c hc => hm c (by simp [hc])) h
      exact ⟨n, h1, .inr h2⟩

theorem occFields_made : {fs : List (Val × Bool × Ty)} → (∀ f ∈ fs, Made f.2.2) → {o : Oid} → occFields o fs →
    ∃ n, Below o (.user n) ∧ occFields (.user n) fs
  | [], _, _, h => by rw [occFields] at h; exact h.elim
  | (k, rq, t) :: fs, hm, o, h => by
    rw [occFields] at h
    rcases h with h | h
    · obtain ⟨n, h1, h2⟩ := occ_made (hm (k, rq, t) (by simp)) h
      exact ⟨n, h1, .inl h2⟩
    · obtain ⟨n, h1, h2⟩ := occFields_made (fun c hc => hm c (by simp [hc])) h
      exact ⟨n, h1, .inr h2⟩
end

theorem tree_of_made {t : Ty} (hm : Made t) (ha : t.Acyc) : Tree t := by
  induction hm with
  | @mk t h hs ih =>
    refine .mk ?_ fun c hc => ih c hc (part_Acyc ha hc)
    intro o ho c hc o' ho'
    obtain ⟨n, rfl⟩ := h o ho
    obtain ⟨m, h1, h2⟩ := occ_made (hs c hc) ho'
    have hne := part_Acyc_occ ha hc ho
    refine ⟨fun hb => ?_, fun _ hb => ?_⟩
    · cases hb; exact hne ho'
    · have := below_user hb h1
      subst this
      exact hne h2

theorem apart_of_made {a b : Ty} (ha : Made a) (hb : Made b) (h : ∀ o, a.occ o → ¬ b.occ o) : Apart a b := by
  rintro o ⟨o1, h1, h2⟩ ⟨o2, h3, h4⟩
  obtain ⟨n, h5, h6⟩ := occ_made ha h1
  obtain ⟨m, h7, h8⟩ := occ_made hb h3
  have := below_user (h2.trans h5) (h4.trans h7)
  subst this
  exact h _ h6 h8

/-! ## Types made along the way -/

/-- `c` comes from `t`: everything in it is made from `t`, and `t` itself is not in it. -/
structure From (t c : Ty) : Prop where
  tree : Tree c
  sub : ∀ o, c.owns o → t.owns o
  new : ∀ o, t.deep? = some o → ¬ c.owns o

theorem From.part {t c : Ty} (h : Tree t) (hc : c ∈ parts t) : From t c :=
  ⟨Every.part h hc, fun _ => part_owns hc, fun _ ho => h.not_owns hc ho⟩

theorem Every.leaf {p : Ty → Prop} {t : Ty} (h : p t) (hp : parts t = []) : Every p t := .mk h (by simp [hp])

mutual
/-- There is no sensitive value in it. -/
def NoSens : Val → Prop
  | .sens _ => False
  | .arr vs => NoSensAll vs
  | .map es => NoSensEntries es
  | _ => True

def NoSensAll : List Val → Prop
  | [] => True
  | v :: vs => NoSens v ∧ NoSensAll vs

def NoSensEntries : List (Val × Val) → Prop
  | [] => True
  | (k, v) :: r => NoSens k ∧ NoSens v ∧ NoSensEntries r
end

theorem NoSensAll_iff {vs : List Val} : NoSensAll vs ↔ ∀ v ∈ vs, NoSens v := by
  induction vs with
  | nil => simp [NoSensAll]
  | cons v vs ih => simp [NoSensAll, ih]

theorem NoSensEntries_iff {es : List (Val × Val)} : NoSensEntries es ↔ ∀ e ∈ es, NoSens e.1 ∧ NoSens e.2 := by
  induction es with
  | nil => simp [NoSensEntries]
  | cons e es ih => obtain ⟨k, v⟩ := e; simp [NoSensEntries, ih, and_assoc]

theorem NoSens.ne {v : Val} (h : NoSens v) : ∀ w, v ≠ .sens w := by
  rintro w rfl
  exact h

/-- The type of a value that is not sensitive -/
theorem typeOf_cases (o : Oid) {v : Val} (h : ∀ w, v ≠ .sens w) :
    typeOf o v = .nilT ∨ (typeOf o v = .exact v ∧ isScalar v = true) ∨ (typeOf o v = .exactD o v ∧ isDeepExact v = true) := by
  cases v with
  | sens w => exact absurd rfl (h w)
  | _ => simp [typeOf, isScalar, isDeepExact]

theorem typeOf_parts (o : Oid) {v : Val} (h : ∀ w, v ≠ .sens w) : parts (typeOf o v) = [] := by
  rcases typeOf_cases o h with e | ⟨e, _⟩ | ⟨e, _⟩ <;> rw [e] <;> rfl

theorem typeOf_owns (o : Oid) {v : Val} (h : ∀ w, v ≠ .sens w) {x : Oid} (hx : (typeOf o v).owns x) : Below x o := by
  obtain ⟨o', h1, h2⟩ := hx
  exact h2.trans ((typeOf_ok o v).below o' h1)

theorem typeOf_tree (o : Oid) {v : Val} (h : ∀ w, v ≠ .sens w) : Tree (typeOf o v) :=
  .leaf (fun o' _ c hc => by rw [typeOf_parts o h] at hc; cases hc) (typeOf_parts o h)

theorem typesOf_mem {o : Oid} {vs : List Val} {t : Ty} (h : t ∈ typesOf o vs) : ∃ k, ∃ v ∈ vs, t = typeOf (.part o k) v := by
  induction vs with
  | nil => simp [typesOf] at h
  | cons v vs ih =>
    rw [typesOf] at h
    rcases List.mem_cons.1 h with rfl | h
    · exact ⟨_, v, by simp, rfl⟩
    · obtain ⟨k, w, hw, e⟩ := ih h
      exact ⟨k, w, by simp [hw], e⟩

/-- A type of a value, made from the object `o` -/
def IsTypeOf (o : Oid) (t : Ty) : Prop := ∃ o' v, NoSens v ∧ Value.WF v ∧ Below o' o ∧ o' ≠ o ∧ t = typeOf o' v

theorem below_part_ne {x o : Oid} {k : Nat} (h : Below x (.part o k)) : Below x o ∧ x ≠ o :=
  ⟨below_of_part h, not_below_of h⟩

theorem below_antisymm {a b : Oid} (h : Below a b) (h' : Below b a) : a = b := by
  cases h with
  | refl => rfl
  | part k h =>
    have h1 := h.size
    have h2 := h'.size
    simp only [osize] at h2
    omega

theorem IsTypeOf.from {o : Oid} {t : Ty} (h : IsTypeOf o t) : Tree t ∧ (∀ x, t.owns x → Below x o ∧ x ≠ o) := by
  obtain ⟨o', v, hv, _, hb, hne, rfl⟩ := h
  refine ⟨typeOf_tree o' hv.ne, fun x hx => ?_⟩
  have h1 := typeOf_owns o' hv.ne hx
  refine ⟨h1.trans hb, ?_⟩
  rintro rfl
  exact hne (below_antisymm hb h1)

theorem typesOf_IsTypeOf {o : Oid} {vs : List Val} (hv : ∀ v ∈ vs, NoSens v) (hw : ∀ v ∈ vs, Value.WF v) {t : Ty} (h : t ∈ typesOf o vs) : IsTypeOf o t := by
  obtain ⟨k, v, hm, rfl⟩ := typesOf_mem h
  exact ⟨_, v, hv v hm, hw v hm, .part k (.refl o), by intro h; have := congrArg osize h; simp [osize] at this, rfl⟩

theorem IsTypeOf.up {o o' : Oid} {t : Ty} (h : IsTypeOf o t) (hb : Below o o') : IsTypeOf o' t := by
  obtain ⟨o1, v, hv, hw, h1, hne, rfl⟩ := h
  refine ⟨o1, v, hv, hw, h1.trans hb, ?_, rfl⟩
  rintro rfl
  exact hne (below_antisymm h1 hb)

theorem IsTypeOf.every {p : Ty → Prop} {o : Oid} {t : Ty} (h : IsTypeOf o t) (h1 : p .nilT) (h2 : ∀ v, NoSens v → p (.exact v))
    (h3 : ∀ o' v, NoSens v → Value.WF v → Below o' o → p (.exactD o' v)) : Every p t := by
  obtain ⟨o', v, hv, hw, hb, hne, rfl⟩ := h
  refine .leaf ?_ (typeOf_parts o' hv.ne)
  rcases typeOf_cases o' hv.ne with e | ⟨e, _⟩ | ⟨e, _⟩ <;> rw [e]
  · exact h1
  · exact h2 v hv
  · exact h3 o' v hv hw hb

theorem IsTypeOf.ok {o : Oid} {t : Ty} (h : IsTypeOf o t) : t.Ok := by
  obtain ⟨o', v, _, hw, _, _, rfl⟩ := h
  exact typeOf_Ok o' hw

end Verif.Types
