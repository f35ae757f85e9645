import Verif.Graph.Spec
/-! # Lemmas about freezing -/
set_option autoImplicit false
namespace Verif.Graph

theorem load_run {h : Heap} {p : Nat} {o : Obj} (e : h[p]? = some o) : load p h = .ok o h := by simp [load, e]
theorem load_run_none {h : Heap} {p : Nat} (e : h[p]? = none) : load p h = .panic h := by simp [load, e]
theorem store_run (h : Heap) (p : Nat) (o : Obj) : store p o h = .ok () (h.set p o) := rfl
theorem alloc_run (h : Heap) (o : Obj) : alloc o h = .ok h.length (h ++ [o]) := rfl

theorem bind_diverge {σ α β : Type} {m : M σ α} {f : α → M σ β} {s : σ} (h : m s = .diverge) : (m >>= f) s = .diverge := by
  rw [M.bind_run, h]

/-- What a bind that returned went through. -/
theorem bind_eq_ok {σ α β : Type} {m : M σ α} {f : α → M σ β} {s s' : σ} {b : β} (h : (m >>= f) s = .ok b s') :
    ∃ a s1, m s = .ok a s1 ∧ f a s1 = .ok b s' := by
  rw [M.bind_run] at h
  match e : m s with
  | .ok a s1 => rw [e] at h; exact ⟨a, s1, rfl, h⟩
  | .panic _ => rw [e] at h; cases h
  | .diverge => rw [e] at h; cases h

theorem bind_eq_panic {σ α β : Type} {m : M σ α} {f : α → M σ β} {s s' : σ} (h : (m >>= f) s = .panic s') :
    m s = .panic s' ∨ ∃ a s1, m s = .ok a s1 ∧ f a s1 = .panic s' := by
  rw [M.bind_run] at h
  match e : m s with
  | .ok a s1 => rw [e] at h; exact .inr ⟨a, s1, rfl, h⟩
  | .panic _ => rw [e] at h; cases h; exact .inl rfl
  | .diverge => rw [e] at h; cases h

/-! ### Approximation: more fuel gives the same answer -/

/-- `g` gives the same as `f` wherever `f` ends. -/
def Le {σ α : Type} (f g : M σ α) : Prop := ∀ s, f s ≠ .diverge → g s = f s

theorem Le.refl {σ α : Type} (f : M σ α) : Le f f := fun _ _ => rfl

theorem Le.trans {σ α : Type} {f g k : M σ α} (a : Le f g) (b : Le g k) : Le f k := by
  intro s hs
  rw [b s (by rw [a s hs]; exact hs), a s hs]

theorem Le.loop {σ α : Type} (f : M σ α) : Le M.loop f := fun _ hs => absurd rfl hs

theorem Le.bind {σ α β : Type} {m m' : M σ α} {f f' : α → M σ β} (a : Le m m') (b : ∀ x, Le (f x) (f' x)) :
    Le (m >>= f) (m' >>= f') := by
  intro s hs
  rw [M.bind_run] at hs ⊢
  rw [M.bind_run]
  match e : m s with
  | .ok x s1 =>
    rw [e] at hs
    rw [a s (by rw [e]; simp), e]
    exact b x s1 hs
  | .panic _ => rw [a s (by rw [e]; simp), e]
  | .diverge => rw [e] at hs; exact absurd rfl hs

theorem Le.bind_right {σ α β : Type} {m : M σ α} {f f' : α → M σ β} (b : ∀ x, Le (f x) (f' x)) : Le (m >>= f) (m >>= f') :=
  Le.bind (Le.refl m) b

theorem Le.forEach {α : Type} {f g : α → M Heap Unit} (a : ∀ x, Le (f x) (g x)) (l : List α) : Le (forEach f l) (forEach g l) := by
  induction l with
  | nil => exact Le.refl _
  | cons x l ih => exact Le.bind (a x) fun _ => ih

theorem Le.mapEach {α β : Type} {f g : α → M Heap β} (a : ∀ x, Le (f x) (g x)) (l : List α) : Le (mapEach f l) (mapEach g l) := by
  induction l with
  | nil => exact Le.refl _
  | cons x l ih => exact Le.bind (a x) fun _ => Le.bind ih fun _ => Le.refl _

theorem freeze_step (n : Nat) (r : Ref) : Le (freeze n r) (freeze (n + 1) r) := by
  induction n generalizing r with
  | zero =>
    cases r with
    | atom i => exact Le.refl _
    | obj p => exact Le.loop _
  | succ n ih =>
    cases r with
    | atom i => exact Le.refl _
    | obj p =>
      refine Le.bind_right fun o => ?_
      cases o with
      | arr f es => cases f; exact Le.bind_right fun _ => Le.forEach ih es; exact Le.refl _
      | map f tl es => cases f; exact Le.bind_right fun _ => Le.forEach (fun e => ih (.obj e)) es; exact Le.refl _
      | entry k v => exact ih v
      | bin f bs => exact Le.refl _
      | sens v => exact ih v
      | native i => exact Le.refl _

theorem freeze_mono {n m : Nat} (hnm : n ≤ m) (r : Ref) : Le (freeze n r) (freeze m r) := by
  induction hnm with
  | refl => exact Le.refl _
  | step _ ih => exact ih.trans (freeze_step _ r)

theorem isFrozen_step (n : Nat) (r : Ref) : Le (isFrozen n r) (isFrozen (n + 1) r) := by
  induction n generalizing r with
  | zero =>
    cases r with
    | atom i => exact Le.refl _
    | obj p => exact Le.loop _
  | succ n ih =>
    cases r with
    | atom i => exact Le.refl _
    | obj p =>
      refine Le.bind_right fun o => ?_
      cases o with
      | entry k v => exact ih v
      | sens v => exact ih v
      | _ => exact Le.refl _

theorem frozenCopy_step (n : Nat) (r : Ref) : Le (frozenCopy n r) (frozenCopy (n + 1) r) := by
  induction n generalizing r with
  | zero =>
    cases r with
    | atom i => exact Le.refl _
    | obj p => exact Le.loop _
  | succ n ih =>
    cases r with
    | atom i => exact Le.refl _
    | obj p =>
      refine Le.bind_right fun o => ?_
      cases o with
      | arr f es => cases f; exact Le.bind (Le.mapEach ih es) fun _ => Le.refl _; exact Le.refl _
      | map f tl es =>
        cases f
        · exact Le.bind (Le.mapEach (fun e => Le.bind_right fun (kv : BitVec 64 × Ref) => Le.bind (ih kv.2) fun _ => Le.refl _) es) fun _ => Le.refl _
        · exact Le.refl _
      | entry k v =>
        refine Le.bind (isFrozen_step n v) fun b => ?_
        cases b
        · exact Le.bind (ih v) fun _ => Le.refl _
        · exact Le.refl _
      | sens v =>
        refine Le.bind (isFrozen_step n v) fun b => ?_
        cases b
        · exact Le.bind (ih v) fun _ => Le.refl _
        · exact Le.refl _
      | _ => exact Le.refl _

theorem thawedCopy_step (n : Nat) (r : Ref) : Le (thawedCopy n r) (thawedCopy (n + 1) r) := by
  induction n generalizing r with
  | zero =>
    cases r with
    | atom i => exact Le.refl _
    | obj p => exact Le.loop _
  | succ n ih =>
    cases r with
    | atom i => exact Le.refl _
    | obj p =>
      refine Le.bind_right fun o => ?_
      cases o with
      | arr f es => exact Le.bind (Le.mapEach ih es) fun _ => Le.refl _
      | map f tl es =>
        exact Le.bind (Le.mapEach (fun e => Le.bind_right fun (kv : BitVec 64 × Ref) => Le.bind (ih kv.2) fun _ => Le.refl _) es) fun _ => Le.refl _
      | entry k v => exact Le.bind_right fun q => Le.bind (ih v) fun _ => Le.refl _
      | sens v =>
        cases v with
        | atom i => exact Le.refl _
        | obj q => exact Le.bind (ih (.obj q)) fun _ => Le.refl _
      | _ => exact Le.refl _

/-! ### Done -/

theorem froze_children (o : Obj) : o.froze.children = o.children := by cases o <;> rfl
theorem froze_wrapped (o : Obj) : o.froze.wrapped = o.wrapped := by cases o <;> rfl
theorem froze_froze (o : Obj) : o.froze.froze = o.froze := by cases o <;> rfl
theorem froze_of_flag {o : Obj} (h : o.flag = some true) : o.froze = o := by
  cases o <;> simp_all [Obj.flag, Obj.froze]
theorem flag_froze {o : Obj} {b : Bool} (h : o.flag = some b) : o.froze.flag = some true := by
  cases o <;> simp_all [Obj.flag, Obj.froze]

theorem wrapped_children {o : Obj} {v : Ref} (h : o.wrapped = some v) : o.children = [v] := by
  cases o <;> simp_all [Obj.wrapped, Obj.children]

/-- `Frozen` is true of the value. -/
inductive Done (h : Heap) : Ref → Prop
  | atom (i : BitVec 64) : Done h (.atom i)
  | flag {p : Nat} {o : Obj} : h[p]? = some o → o.flag = some true → Done h (.obj p)
  | wrap {p : Nat} {o : Obj} {v : Ref} : h[p]? = some o → o.wrapped = some v → Done h v → Done h (.obj p)

/-- Local form of `DeeplyFrozen`. -/
def LocalDeep (h : Heap) : Prop := ∀ (p : Nat) (o : Obj), h[p]? = some o → o.flag = some true → ∀ c ∈ o.children, Done h c

theorem Done.reach {h : Heap} (hd : LocalDeep h) {r : Ref} {q : Nat} (hr : Reach h r q) (hdone : Done h r) : Done h (.obj q) := by
  induction hr with
  | here p => exact hdone
  | step hp hc _ ih =>
    refine ih ?_
    cases hdone with
    | flag hp' hf =>
      rw [hp] at hp'; cases hp'
      exact hd _ _ hp hf _ hc
    | wrap hp' hw hv =>
      rw [hp] at hp'; cases hp'
      rw [wrapped_children hw] at hc
      rw [List.mem_singleton.1 hc]; exact hv

theorem Done.not_mutable {h : Heap} {q : Nat} (hd : Done h (.obj q)) : ¬ IsMutable h q := by
  rintro ⟨o, ho, hf⟩
  cases hd with
  | flag ho' hf' => rw [ho] at ho'; cases ho'; rw [hf] at hf'; cases hf'
  | wrap ho' hw _ => rw [ho] at ho'; cases ho'; cases o <;> simp_all [Obj.wrapped, Obj.flag]

theorem LocalDeep.deeply {h : Heap} (hd : LocalDeep h) : DeeplyFrozen h := by
  rintro p ⟨o, ho, hf⟩ q hq
  exact (Done.reach hd hq (.flag ho hf)).not_mutable

/-! ### Frozen extension -/

/-- `h'` is `h` with some flags set. -/
structure Fz (h h' : Heap) : Prop where
  len : h'.length = h.length
  obj : ∀ (p : Nat) (o : Obj), h[p]? = some o → h'[p]? = some o ∨ h'[p]? = some o.froze

theorem Fz.refl (h : Heap) : Fz h h := ⟨rfl, fun _ _ e => .inl e⟩

theorem Fz.trans {a b c : Heap} (x : Fz a b) (y : Fz b c) : Fz a c := by
  refine ⟨y.len.trans x.len, fun p o e => ?_⟩
  rcases x.obj p o e with e | e <;> rcases y.obj _ _ e with e | e
  · exact .inl e
  · exact .inr e
  · exact .inr e
  · rw [froze_froze] at e; exact .inr e

theorem Fz.set {h : Heap} {p : Nat} {o : Obj} (e : h[p]? = some o) : Fz h (h.set p o.froze) := by
  refine ⟨by simp, fun q o' e' => ?_⟩
  by_cases hq : p = q
  · subst hq
    rw [e] at e'; cases e'
    right
    rw [List.getElem?_set_self (List.getElem?_eq_some_iff.1 e).1]
  · left
    rw [List.getElem?_set_ne hq]; exact e'

theorem Fz.back {h h' : Heap} (x : Fz h h') {p : Nat} {o' : Obj} (e : h'[p]? = some o') :
    ∃ o, h[p]? = some o ∧ (o' = o ∨ o' = o.froze) := by
  have hl := (List.getElem?_eq_some_iff.1 e).1
  rw [x.len] at hl
  refine ⟨h[p], List.getElem?_eq_getElem hl, ?_⟩
  rcases x.obj p _ (List.getElem?_eq_getElem hl) with e' | e' <;> rw [e] at e' <;> cases e'
  · exact .inl rfl
  · exact .inr rfl

theorem Fz.done {h h' : Heap} (x : Fz h h') {r : Ref} (hd : Done h r) : Done h' r := by
  induction hd with
  | atom i => exact .atom i
  | flag hp hf =>
    rcases x.obj _ _ hp with e | e
    · exact .flag e hf
    · exact .flag e (flag_froze hf)
  | wrap hp hw _ ih =>
    rcases x.obj _ _ hp with e | e
    · exact .wrap e hw ih
    · exact .wrap e (by rw [froze_wrapped]; exact hw) ih

theorem Fz.reach {h h' : Heap} (x : Fz h h') {r : Ref} {q : Nat} : Reach h' r q ↔ Reach h r q := by
  constructor
  · intro hr
    induction hr with
    | here p => exact .here p
    | step hp hc _ ih =>
      obtain ⟨o, ho, e⟩ := x.back hp
      refine .step ho ?_ ih
      rcases e with rfl | rfl
      · exact hc
      · rwa [froze_children] at hc
  · intro hr
    induction hr with
    | here p => exact .here p
    | step hp hc _ ih =>
      rcases x.obj _ _ hp with e | e
      · exact .step e hc ih
      · exact .step e (by rw [froze_children]; exact hc) ih

/-- The flags that were set belong to the given objects, and the contents of what was frozen are done. -/
structure Froze (h h' : Heap) (S : Nat → Prop) : Prop where
  fz : Fz h h'
  only : ∀ (p : Nat), h'[p]? ≠ h[p]? → S p
  deep : ∀ (p : Nat) (o : Obj), h'[p]? = some o → h[p]? ≠ some o → ∀ c ∈ o.children, Done h' c

theorem Froze.refl (h : Heap) (S : Nat → Prop) : Froze h h S :=
  ⟨Fz.refl h, fun _ e => absurd rfl e, fun _ _ e e' => absurd e e'⟩

theorem Froze.trans {a b c : Heap} {S : Nat → Prop} (x : Froze a b S) (y : Froze b c S) : Froze a c S := by
  refine ⟨x.fz.trans y.fz, fun p e => ?_, fun p o e e' => ?_⟩
  · by_cases h1 : b[p]? = a[p]?
    · exact y.only p (by rw [h1]; exact e)
    · exact x.only p h1
  · by_cases h1 : b[p]? = some o
    · exact fun ch hc => y.fz.done (x.deep p o h1 e' ch hc)
    · exact y.deep p o e h1

theorem Froze.mono {a b : Heap} {S T : Nat → Prop} (x : Froze a b S) (h : ∀ p, S p → T p) : Froze a b T :=
  ⟨x.fz, fun p e => h p (x.only p e), x.deep⟩

theorem forEach_froze {α : Type} {f : α → M Heap Unit} {g : α → Ref} {S : Nat → Prop} (l : List α)
    {h0 h h' : Heap} (hf : ∀ a ∈ l, ∀ h1 h2, Fz h0 h1 → f a h1 = .ok () h2 → Froze h1 h2 S ∧ Done h2 (g a))
    (h0h : Fz h0 h) (hr : forEach f l h = .ok () h') :
    Froze h h' S ∧ ∀ a ∈ l, Done h' (g a) := by
  induction l generalizing h with
  | nil => cases hr; exact ⟨Froze.refl _ S, by simp⟩
  | cons a l ih =>
    obtain ⟨_, h1, e1, e2⟩ := bind_eq_ok hr
    obtain ⟨x, d⟩ := hf a (by simp) h h1 h0h e1
    obtain ⟨y, ds⟩ := ih (fun b hb => hf b (by simp [hb])) (h0h.trans x.fz) e2
    refine ⟨x.trans y, fun b hb => ?_⟩
    rcases List.mem_cons.1 hb with rfl | hb
    · exact y.fz.done d
    · exact ds b hb

/-- What `Freeze` does when it returns. -/
theorem freeze_froze (n : Nat) {r : Ref} {h h' : Heap} (hr : freeze n r h = .ok () h') :
    Froze h h' (Reach h r) ∧ Done h' r := by
  induction n generalizing r h h' with
  | zero =>
    cases r with
    | atom i => cases hr; exact ⟨Froze.refl h _, .atom i⟩
    | obj p => cases hr
  | succ n ih =>
    cases r with
    | atom i => cases hr; exact ⟨Froze.refl h _, .atom i⟩
    | obj p =>
      obtain ⟨o, h1, e1, e2⟩ := bind_eq_ok hr
      match hp : h[p]? with
      | none => rw [load_run_none hp] at e1; cases e1
      | some o' =>
        rw [load_run hp] at e1; cases e1
        have wrapcase : ∀ v, o.wrapped = some v → freeze n v h = .ok () h' →
            Froze h h' (Reach h (.obj p)) ∧ Done h' (.obj p) := by
          intro v hv e
          obtain ⟨x, d⟩ := ih e
          have hc : v ∈ o.children := by cases o <;> simp_all [Obj.wrapped, Obj.children]
          refine ⟨x.mono fun q hq => .step hp hc hq, ?_⟩
          rcases x.fz.obj p o hp with e | e
          · exact .wrap e hv d
          · exact .wrap e (by rw [froze_wrapped]; exact hv) d
        have collcase : ∀ (l : List Ref), o.children = l → o.flag = some false →
            (∃ (α : Type) (as : List α) (f : α → M Heap Unit) (g : α → Ref), (∀ a, f a = freeze n (g a)) ∧ l = as.map g ∧
              forEach f as (h.set p o.froze) = .ok () h') → Froze h h' (Reach h (.obj p)) ∧ Done h' (.obj p) := by
          rintro l hl hfl ⟨α, as, f, g, hf, hg, e⟩
          have hs := Fz.set hp
          have hset : (h.set p o.froze)[p]? = some o.froze := List.getElem?_set_self (List.getElem?_eq_some_iff.1 hp).1
          obtain ⟨y, ds⟩ := forEach_froze (S := Reach h (.obj p)) (g := g) as (fun a ha k1 k2 hk e => by
            rw [hf] at e
            obtain ⟨x, d⟩ := ih e
            refine ⟨x.mono fun q hq => ?_, d⟩
            refine .step hp (by rw [hl, hg]; exact List.mem_map_of_mem ha) ?_
            exact (hs.trans hk).reach.1 hq) (Fz.refl _) e
          have hdone : Done h' (.obj p) := by
            rcases y.fz.obj p _ hset with e | e
            · exact .flag e (flag_froze hfl)
            · exact .flag e (flag_froze (flag_froze hfl))
          refine ⟨⟨hs.trans y.fz, fun q hq => ?_, fun q o2 e e' c hc => ?_⟩, hdone⟩
          · by_cases hq' : h'[q]? = (h.set p o.froze)[q]?
            · by_cases e : p = q
              · subst e; exact .here p
              · rw [List.getElem?_set_ne e] at hq'; exact absurd hq' hq
            · exact y.only q hq'
          · by_cases h2 : (h.set p o.froze)[q]? = some o2
            · by_cases e3 : p = q
              · subst e3
                rw [hset] at h2; cases h2
                rw [froze_children, hl, hg, List.mem_map] at hc
                obtain ⟨a, ha, rfl⟩ := hc
                exact ds a ha
              · rw [List.getElem?_set_ne e3] at h2; exact absurd h2 e'
            · exact y.deep q o2 e h2 c hc
        cases o with
        | arr f es =>
          cases f
          · simp only [Bool.false_eq_true, if_false] at e2
            obtain ⟨_, h1, e3, e4⟩ := bind_eq_ok e2
            rw [store_run] at e3; cases e3
            exact collcase es rfl rfl ⟨Ref, es, freeze n, id, fun _ => rfl, by simp, e4⟩
          · simp only [if_true] at e2
            cases e2
            exact ⟨Froze.refl h _, .flag hp rfl⟩
        | map f tl es =>
          cases f
          · simp only [Bool.false_eq_true, if_false] at e2
            obtain ⟨_, h1, e3, e4⟩ := bind_eq_ok e2
            rw [store_run] at e3; cases e3
            exact collcase (es.map .obj) rfl rfl ⟨Nat, es, fun e => freeze n (.obj e), .obj, fun _ => rfl, rfl, e4⟩
          · simp only [if_true] at e2
            cases e2
            exact ⟨Froze.refl h _, .flag hp rfl⟩
        | entry k v => exact wrapcase v rfl e2
        | sens v => exact wrapcase v rfl e2
        | bin f bs =>
          cases e2
          have hs := Fz.set hp
          have hset : (h.set p (.bin true bs))[p]? = some (.bin true bs) :=
            List.getElem?_set_self (List.getElem?_eq_some_iff.1 hp).1
          refine ⟨⟨hs, fun q hq => ?_, fun q o2 e e' c hc => ?_⟩, .flag hset rfl⟩
          · by_cases e : p = q
            · subst e; exact .here p
            · rw [List.getElem?_set_ne e] at hq; exact absurd rfl hq
          · by_cases e3 : p = q
            · subst e3
              rw [hset] at e; cases e
              simp [Obj.children] at hc
            · rw [List.getElem?_set_ne e3] at e; exact absurd e e'
        | native i => cases e2

theorem Froze.localDeep {h h' : Heap} {S : Nat → Prop} (x : Froze h h' S) (hd : LocalDeep h) : LocalDeep h' := by
  intro p o hp hf c hc
  by_cases e : h[p]? = some o
  · exact x.fz.done (hd p o e hf c hc)
  · exact x.deep p o hp e c hc

/-- `Freeze` only sets flags, whether it returns or panics. -/
theorem freeze_fz (n : Nat) {r : Ref} {h h' : Heap} (hr : freeze n r h = .ok () h' ∨ freeze n r h = .panic h') : Fz h h' := by
  induction n generalizing r h h' with
  | zero =>
    cases r with
    | atom i => rcases hr with hr | hr <;> cases hr; exact Fz.refl h
    | obj p => rcases hr with hr | hr <;> cases hr
  | succ n ih =>
    have loop : ∀ {α : Type} (f : α → M Heap Unit) (g : α → Ref) (hf : ∀ a, f a = freeze n (g a)) (as : List α) (h : Heap),
        forEach f as h = .ok () h' ∨ forEach f as h = .panic h' → Fz h h' := by
      intro α f g hf as
      induction as with
      | nil => intro h hr; rcases hr with hr | hr <;> cases hr; exact Fz.refl _
      | cons a as ih2 =>
        intro h hr
        rcases hr with hr | hr
        · obtain ⟨_, h1, e1, e2⟩ := bind_eq_ok hr
          rw [hf] at e1
          exact (ih (.inl e1)).trans (ih2 h1 (.inl e2))
        · rcases bind_eq_panic hr with hr | ⟨_, h1, e1, e2⟩
          · rw [hf] at hr; exact ih (.inr hr)
          · rw [hf] at e1
            exact (ih (.inl e1)).trans (ih2 h1 (.inr e2))
    cases r with
    | atom i => rcases hr with hr | hr <;> cases hr; exact Fz.refl h
    | obj p =>
      match hp : h[p]? with
      | none =>
        have : freeze (n + 1) (.obj p) h = .panic h := M.bind_panic (load_run_none hp)
        rw [this] at hr
        rcases hr with hr | hr <;> cases hr; exact Fz.refl h
      | some o =>
        rw [show freeze (n + 1) (.obj p) h = _ from M.bind_ok (load_run hp)] at hr
        cases o with
        | arr f es =>
          cases f
          · exact (Fz.set hp).trans (loop (freeze n) id (fun _ => rfl) es _ hr)
          · rcases hr with hr | hr <;> cases hr; exact Fz.refl h
        | map f tl es =>
          cases f
          · exact (Fz.set hp).trans (loop (fun e => freeze n (.obj e)) .obj (fun _ => rfl) es _ hr)
          · rcases hr with hr | hr <;> cases hr; exact Fz.refl h
        | entry k v => exact ih hr
        | sens v => exact ih hr
        | bin f bs => rcases hr with hr | hr <;> cases hr; exact Fz.set hp
        | native i => rcases hr with hr | hr <;> cases hr; exact Fz.refl h

/-! ### Termination of Freeze -/

theorem Fz.chain {h h' : Heap} (x : Fz h h') {k : Nat} {r : Ref} (hc : Chain h k r) : Chain h' k r := by
  induction hc with
  | atom k i => exact .atom k i
  | none k e =>
    refine .none k ?_
    rw [List.getElem?_eq_none_iff] at e ⊢
    rw [x.len]; exact e
  | coll k hp hw =>
    rcases x.obj _ _ hp with e | e
    · exact .coll k e hw
    · exact .coll k e (by rw [froze_wrapped]; exact hw)
  | wrap hp hw _ ih =>
    rcases x.obj _ _ hp with e | e
    · exact .wrap e hw ih
    · exact .wrap e (by rw [froze_wrapped]; exact hw) ih

theorem Fz.noWrapperCycle {h h' : Heap} (x : Fz h h') (hn : NoWrapperCycle h) : NoWrapperCycle h' :=
  fun r => (hn r).imp fun _ hc => x.chain hc

/-- The number of collections that are not frozen. -/
def unfrozen (h : Heap) : Nat := h.countP fun o => o.flag == some false

theorem countP_le_of_imp {α : Type} (P : α → Bool) (l l' : List α) (hl : l'.length = l.length)
    (hi : ∀ (p : Nat) (a a' : α), l[p]? = some a → l'[p]? = some a' → P a' = true → P a = true) : l'.countP P ≤ l.countP P := by
  induction l generalizing l' with
  | nil => cases l' <;> simp_all
  | cons a l ih =>
    cases l' with
    | nil => simp
    | cons a' l' =>
      have := ih l' (by simpa using hl) fun p x x' e e' => hi (p + 1) x x' (by simpa using e) (by simpa using e')
      have h0 := hi 0 a a' rfl rfl
      simp only [List.countP_cons]
      cases h1 : P a' <;> cases h2 : P a <;> simp_all <;> omega

theorem Fz.unfrozen_le {h h' : Heap} (x : Fz h h') : unfrozen h' ≤ unfrozen h := by
  refine countP_le_of_imp _ h h' x.len fun p o o' e e' ht => ?_
  rcases x.obj p o e with e2 | e2 <;> rw [e'] at e2 <;> cases e2
  · exact ht
  · cases o <;> simp_all [Obj.froze, Obj.flag]

theorem unfrozen_set {h : Heap} {p : Nat} {o : Obj} (e : h[p]? = some o) (hf : o.flag = some false) :
    unfrozen (h.set p o.froze) < unfrozen h := by
  induction h generalizing p with
  | nil => cases e
  | cons x h ih =>
    cases p with
    | zero =>
      cases e
      simp [unfrozen, hf, flag_froze hf]
    | succ p =>
      have := ih (p := p) (by simpa using e)
      simp only [unfrozen, List.set_cons_succ, List.countP_cons] at this ⊢
      omega

/-- The computation ends, with enough fuel. -/
def Ends {α : Type} (f : Nat → M Heap α) (h : Heap) : Prop := ∃ n, f n h ≠ .diverge

theorem freeze_ends (u : Nat) : ∀ (k : Nat) (r : Ref) (h : Heap), unfrozen h ≤ u → NoWrapperCycle h → Chain h k r →
    Ends (fun n => freeze n r) h := by
  induction u using Nat.strongRecOn with
  | ind u ihu =>
    have loop : ∀ {α : Type} (g : α → Ref) (as : List α) (h : Heap), unfrozen h < u → NoWrapperCycle h →
        Ends (fun n => forEach (fun a => freeze n (g a)) as) h := by
      intro α g as
      induction as with
      | nil => intro h _ _; exact ⟨0, by simp [forEach]⟩
      | cons a as ih2 =>
        intro h hu hn
        obtain ⟨k, hk⟩ := hn (g a)
        obtain ⟨n1, e1⟩ := ihu _ hu k (g a) h (Nat.le_refl _) hn hk
        match hr : freeze n1 (g a) h with
        | .diverge => exact absurd hr e1
        | .panic h1 =>
          refine ⟨n1, ?_⟩
          show (freeze n1 (g a) >>= fun _ => forEach (fun a => freeze n1 (g a)) as) h ≠ .diverge
          rw [M.bind_panic hr]; simp
        | .ok _ h1 =>
          have hz := freeze_fz n1 (.inl hr)
          have := hz.unfrozen_le
          obtain ⟨n2, e2⟩ := ih2 h1 (by omega) (hz.noWrapperCycle hn)
          refine ⟨max n1 n2, ?_⟩
          have h1' : freeze (max n1 n2) (g a) h = .ok () h1 := by
            rw [freeze_mono (Nat.le_max_left _ _) (g a) h (by rw [hr]; simp), hr]
          show (freeze (max n1 n2) (g a) >>= fun _ => forEach (fun a => freeze (max n1 n2) (g a)) as) h ≠ .diverge
          rw [M.bind_ok h1']
          have := Le.forEach (fun a => freeze_mono (Nat.le_max_right n1 n2) (g a)) as h1 e2
          rw [this]; exact e2
    intro k
    induction k with
    | zero =>
      intro r h hu hn hc
      cases hc with
      | atom _ i => exact ⟨0, by simp [freeze]⟩
      | none _ e => exact ⟨1, by show freeze _ _ h ≠ _; rw [show freeze 1 (.obj _) h = _ from M.bind_panic (load_run_none e)]; simp⟩
      | coll _ hp hw =>
        rename_i p o
        have key : ∀ {α : Type} (g : α → Ref) (as : List α), o.flag = some false →
            Ends (fun n => forEach (fun a => freeze n (g a)) as) (h.set p o.froze) := by
          intro α g as hf
          have := unfrozen_set hp hf
          exact loop g as _ (by omega) ((Fz.set hp).noWrapperCycle hn)
        cases o with
        | arr f es =>
          cases f
          · obtain ⟨n, e⟩ := key id es rfl
            exact ⟨n + 1, by show freeze _ _ h ≠ _; rw [show freeze (n + 1) (.obj p) h = _ from M.bind_ok (load_run hp)]; exact e⟩
          · exact ⟨1, by show freeze _ _ h ≠ _; rw [show freeze 1 (.obj p) h = _ from M.bind_ok (load_run hp)]; simp⟩
        | map f tl es =>
          cases f
          · obtain ⟨n, e⟩ := key Ref.obj es rfl
            exact ⟨n + 1, by show freeze _ _ h ≠ _; rw [show freeze (n + 1) (.obj p) h = _ from M.bind_ok (load_run hp)]; exact e⟩
          · exact ⟨1, by show freeze _ _ h ≠ _; rw [show freeze 1 (.obj p) h = _ from M.bind_ok (load_run hp)]; simp⟩
        | bin f bs => exact ⟨1, by show freeze _ _ h ≠ _; rw [show freeze 1 (.obj p) h = _ from M.bind_ok (load_run hp)]; simp [store]⟩
        | native i => exact ⟨1, by show freeze _ _ h ≠ _; rw [show freeze 1 (.obj p) h = _ from M.bind_ok (load_run hp)]; simp⟩
        | entry k v => cases hw
        | sens v => cases hw
    | succ k ihk =>
      intro r h hu hn hc
      have hz : ∀ {r}, Chain h 0 r → Ends (fun n => freeze n r) h := fun hc => by
        -- a chain of length 0 is also one of length k
        have up : ∀ {k r}, Chain h k r → Chain h (k + 1) r := by
          intro k r hc
          induction hc with
          | atom k i => exact .atom _ i
          | none k e => exact .none _ e
          | coll k e w => exact .coll _ e w
          | wrap e w _ ih => exact .wrap e w ih
        have : ∀ j, Chain h j _ := fun j => Nat.rec hc (fun _ => up) j
        exact ihk _ h hu hn (this k)
      cases hc with
      | atom _ i => exact hz (.atom 0 i)
      | none _ e => exact hz (.none 0 e)
      | coll _ e w => exact hz (.coll 0 e w)
      | wrap hp hw hv =>
        rename_i p o v
        obtain ⟨n, e⟩ := ihk v h hu hn hv
        refine ⟨n + 1, ?_⟩
        show freeze _ _ h ≠ _
        rw [show freeze (n + 1) (.obj p) h = _ from M.bind_ok (load_run hp)]
        cases o <;> simp only [Obj.wrapped, Option.some.injEq, reduceCtorEq] at hw
        all_goals subst hw; exact e

end Verif.Graph
