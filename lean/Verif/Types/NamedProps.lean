import Verif.Types.NamedSpec
/-!
# C78: named types
-/
set_option autoImplicit false
set_option linter.unusedVariables false
set_option linter.unusedSimpArgs false
namespace Verif.Named
open Verif.Value (Str Val)

theorem fits_iff (a b : GoType) : a.assignableTo b = true ↔ Fits a b := by
  simp [GoType.assignableTo, Fits, List.all_eq_true]

theorem Made.assignableType {W : World} {p : Nat} {t : NT} (h : Made p t) : assignableType W t = (W.defs p).target := by
  cases h <;> simp only [Named.assignableType, Def.target] <;> cases (W.defs p).ifd <;> rfl

theorem Made.reflectType {W : World} {p : Nat} {t : NT} (h : Made p t) : reflectType W t = (W.defs p).impl := by
  cases h <;> rfl

theorem Made.accepts {W : World} {p : Nat} {t : NT} (h : Made p t) (o : T) : accepts W t o = checker W p t o := by
  cases h <;> rfl

theorem Made.generic {p : Nat} {t : NT} (h : Made p t) : Named.generic t = .named p := by
  cases h <;> rfl

theorem Made.instance? {W : World} {p : Nat} {t : NT} (h : Made p t) (v : V) : instance? W t v = assignable W t (W.type v) := by
  cases h <;> rfl

theorem assignable_nt (W : World) (t u : NT) : assignable W t (.nt u) = accepts W t (.nt u) := by
  unfold assignable
  cases h : accepts W t (.nt u) with
  | panic => rfl
  | ok b => cases b <;> rfl

theorem assignable_plain (W : World) (t : NT) : assignable W t .plain = accepts W t .plain := by
  unfold assignable
  cases h : accepts W t .plain with
  | panic => rfl
  | ok b => cases b <;> rfl

/-- Without a checker -/
theorem default_nt {W : World} {p : Nat} {t u : NT} (h : Made p t) (hc : (W.defs p).checker = none) {a b : GoType}
    (ha : reflectType W u = some a) (hb : (W.defs p).target = some b) : assignable W t (.nt u) = .ok (a.assignableTo b) := by
  rw [assignable_nt, h.accepts, checker, hc]
  simp only [Option.getD, defaultChecker, ha, h.assignableType, hb]

/-- **C78** A named type without a checker of its own, with or without parameters, has as instances the values of the named types whose Go
type has what it takes to be assigned to its interface or, if it has none, to its Go type.  Values of dgo's own types are not instances. -/
theorem C78_instance (W : World) (p : Nat) (t : NT) (b : GoType) (h : Made p t) (hc : (W.defs p).checker = none)
    (hb : (W.defs p).target = some b) :
    (∀ x q a, IsValue W x q a → ∃ r, instance? W t (.host x) = .ok r ∧ (r = true ↔ Fits a b)) ∧
      ∀ v, instance? W t (.data v) = .ok false := by
  constructor
  · rintro x q a ⟨u, hu, ht, ha⟩
    refine ⟨a.assignableTo b, ?_, fits_iff a b⟩
    rw [h.instance?]
    show assignable W t (W.typeOf x) = _
    rw [ht]
    exact default_nt h hc (by rw [← ha, ← hu.reflectType (W := W)]; rfl) hb
  · intro v
    rw [h.instance?]
    show assignable W t .plain = _
    rw [assignable_plain, h.accepts, checker, hc]
    rfl

/-! An example.  Type 0 is implemented by `A`, type 1 by `B` with the interface `I`, which `A` implements as well.  Type 2 is like the first
but has a checker: it takes one parameter or more only.  The objects 0 and 1 are values of types 0 and 1, 2 is one of `0` with parameters. -/
namespace Ex

def A : GoType := { id := 0, iface := false, methods := [0, 1, 2] }
def B : GoType := { id := 1, iface := false, methods := [0, 2] }
def I : GoType := { id := 2, iface := true, methods := [2] }

def defs : Nat → Def
  | 0 => { name := [97], ctor := some fun v => match v with | .data (.int _) => .ok (.host 0) | .data _ => .ok (.host 1) | _ => .panic,
           extractor := some fun _ => .ok (.data (.int 3)), impl := some A, ifd := none, checker := none }
  | 1 => { name := [98], ctor := none, extractor := none, impl := some B, ifd := some I, checker := none }
  | _ => { name := [99], ctor := some fun v => match v with | .data _ => .ok (.host 0) | _ => .panic, extractor := none, impl := some A, ifd := none,
           checker := some fun s o => .ok (match o with | .nt (.exact _ _) => decide (((parameters s).getD []).length ≥ 1) | _ => false) }

def W : World :=
  { defs := defs
    typeOf := fun | 0 => .nt (.exact (.named 0) (.host 0)) | 1 => .nt (.exact (.named 1) (.host 1))
                  | x => .nt (.exact (.param 7 (.named 0) [.int 1]) (.host x))
    equals := fun x v => match v with | .host y => x == y | _ => false
    hash := fun x => BitVec.ofNat 64 x }

theorem v0 : IsValue W 0 0 A := ⟨_, .named, rfl, rfl⟩
theorem v1 : IsValue W 1 1 B := ⟨_, .named, rfl, rfl⟩
theorem v2 : IsValue W 2 0 A := ⟨_, .param 7 [.int 1], rfl, rfl⟩

end Ex

example : (∃ r, instance? Ex.W (.named 1) (.host 2) = .ok r ∧ (r = true ↔ Fits Ex.A Ex.I)) ∧ instance? Ex.W (.named 1) (.host 2) = .ok true ∧
    instance? Ex.W (.named 0) (.host 1) = .ok false ∧ instance? Ex.W (.named 0) (.data (.int 3)) = .ok false :=
  ⟨(C78_instance Ex.W 1 (.named 1) Ex.I .named rfl rfl).1 2 0 Ex.A Ex.v2, rfl, rfl, (C78_instance Ex.W 0 (.named 0) Ex.A .named rfl rfl).2 _⟩

/-- **C78** A named type with a checker has as instances the values that the checker accepts; it is given the type itself, with its
parameters, and the exact type of the value. -/
theorem C78_checked (W : World) (p : Nat) (t : NT) (c : NT → T → Out Bool) (h : Made p t) (hc : (W.defs p).checker = some c) (x q : Nat)
    (a : GoType) (hx : IsValue W x q a) : instance? W t (.host x) = c t (W.typeOf x) := by
  obtain ⟨u, _, ht, _⟩ := hx
  rw [h.instance?]
  show assignable W t (W.typeOf x) = _
  rw [ht, assignable_nt, h.accepts, checker, hc]
  rfl

example : instance? Ex.W (.param 5 (.named 2) [.nil]) (.host 0) = .ok true ∧ instance? Ex.W (.param 5 (.named 2) []) (.host 0) = .ok false := by
  rw [C78_checked Ex.W 2 _ _ (.param 5 [.nil]) rfl 0 0 Ex.A Ex.v0, C78_checked Ex.W 2 _ _ (.param 5 []) rfl 0 0 Ex.A Ex.v0]
  exact ⟨rfl, rfl⟩

/-- **C78** If the type has a checker then `New` returns what the constructor made if the checker accepts it and panics if not: what it
returns is an instance. -/
theorem C78_new (W : World) (p : Nat) (t : NT) (c : NT → T → Out Bool) (h : Made p t) (hc : (W.defs p).checker = some c) (arg v : V) :
    (new W t arg = .ok v ↔ ∃ f, (W.defs p).ctor = some f ∧ f arg = .ok v ∧ c t (W.type v) = .ok true) ∧
      (new W t arg = .ok v → instance? W t v = .ok true) := by
  have key : new W t arg = .ok v ↔ ∃ f, (W.defs p).ctor = some f ∧ f arg = .ok v ∧ c t (W.type v) = .ok true := by
    unfold new
    rw [h.generic]
    cases hf : (W.defs p).ctor with
    | none => simp [hf]
    | some f =>
      simp only [hf, hc]
      cases hv : f arg with
      | panic => simp [hv, Out.bind]
      | ok w =>
        simp only [hv, Out.bind]
        cases hb : c t (W.type w) with
        | panic =>
          simp only [Option.some.injEq, reduceCtorEq, false_iff, not_exists, not_and]
          rintro g rfl he
          rw [hv] at he
          cases he
          rw [hb]; simp
        | ok b =>
          cases b
          · simp only [Bool.false_eq_true, if_false, Option.some.injEq, reduceCtorEq, false_iff, not_exists, not_and]
            rintro g rfl he
            rw [hv] at he
            cases he
            rw [hb]; simp
          · simp only [if_true, Out.ok.injEq, Option.some.injEq]
            constructor
            · rintro rfl; exact ⟨f, rfl, hv, hb⟩
            · rintro ⟨g, rfl, he, _⟩
              rw [hv] at he
              exact Out.ok.inj he
  refine ⟨key, fun hn => ?_⟩
  obtain ⟨f, _, _, h3⟩ := key.1 hn
  rw [h.instance?]
  unfold assignable
  rw [h.accepts, checker, hc]
  simp only [Option.getD, h3, Out.bind]

example : new Ex.W (.param 5 (.named 2) [.nil]) (.data .nil) = .ok (.host 0) ∧ new Ex.W (.param 5 (.named 2) []) (.data .nil) = .panic ∧
    instance? Ex.W (.param 5 (.named 2) [.nil]) (.host 0) = .ok true :=
  ⟨rfl, rfl, (C78_new Ex.W 2 _ _ (.param 5 [.nil]) rfl (.data .nil) (.host 0)).2 rfl⟩

/-- **C78** (partial) Without a checker `New` returns whatever the constructor made.  It is an instance if its Go type fits: partial, the
full claim being that `New` returns instances only (see `C78_new_violated`). -/
theorem C78_new_partial (W : World) (p : Nat) (t : NT) (b : GoType) (h : Made p t) (hc : (W.defs p).checker = none)
    (hb : (W.defs p).target = some b) (arg v : V) :
    (new W t arg = .ok v ↔ ∃ f, (W.defs p).ctor = some f ∧ f arg = .ok v) ∧
      ∀ x q a, v = .host x → IsValue W x q a → Fits a b → new W t arg = .ok v → instance? W t v = .ok true := by
  constructor
  · unfold new
    rw [h.generic]
    cases hf : (W.defs p).ctor with
    | none => simp [hf]
    | some f =>
      simp only [hf, hc, Option.some.injEq, exists_eq_left']
      cases hv : f arg <;> simp [hv, Out.bind]
  · rintro x q a rfl hx hfit _
    obtain ⟨r, h1, h2⟩ := (C78_instance W p t b h hc hb).1 x q a hx
    rw [h1, h2.2 hfit]

example : new Ex.W (.named 0) (.data (.int 1)) = .ok (.host 0) ∧ instance? Ex.W (.named 0) (.host 0) = .ok true :=
  ⟨rfl, (C78_new_partial Ex.W 0 _ Ex.A .named rfl rfl (.data (.int 1)) (.host 0)).2 0 0 Ex.A rfl Ex.v0 (.inl rfl) rfl⟩

/-- **C78** does not hold: without a checker, what `New` returns is not checked at all and need not be an instance. -/
theorem C78_new_violated : ∃ W t arg v, Made 0 t ∧ new W t arg = .ok v ∧ instance? W t v = .ok false :=
  ⟨Ex.W, .named 0, .data .nil, .host 1, .named, rfl, rfl⟩

/-- **C78** `New` of the exact type of a value panics if the type of the value has parameters, whatever the argument.  Otherwise it is
`New` of its type, except that a checker is given the exact type. -/
theorem C78_exact_new (W : World) (p : Nat) (v arg : V) :
    (∀ id ps, new W (.exact (.param id (.named p) ps) v) arg = .panic) ∧
      ((W.defs p).checker = none → new W (.exact (.named p) v) arg = new W (.named p) arg) := by
  refine ⟨fun id ps => rfl, fun hc => ?_⟩
  simp only [new, generic, hc]

example : new Ex.W (.exact (.param 7 (.named 0) [.int 1]) (.host 2)) (.data (.int 1)) = .panic ∧
    new Ex.W (.param 7 (.named 0) [.int 1]) (.data (.int 1)) = .ok (.host 0) :=
  ⟨(C78_exact_new Ex.W 0 (.host 2) _).1 7 _, rfl⟩

/-- **C78** does not hold: `New` of an exact type returns values that are not instances of it. -/
theorem C78_exact_new_violated : ∃ W v arg w, new W (.exact (.named 0) v) arg = .ok w ∧ instance? W (.exact (.named 0) v) w = .ok false :=
  ⟨Ex.W, .host 3, .data (.int 1), .host 0, rfl, rfl⟩

/-- **C78** The name, the Go type, and the extraction of the argument are those of the registered type for its parameterized and exact types
too; parameters are found in exact types too. -/
theorem C78_promoted (W : World) (p : Nat) (t : NT) (h : Over p t) (v : V) :
    name W t = (W.defs p).name ∧ reflectType W t = (W.defs p).impl ∧ assignableType W t = (W.defs p).target ∧
      (extract W v t = match (W.defs p).extractor with | some f => f v | none => .panic) := by
  have made : ∀ t, Made p t → name W t = (W.defs p).name ∧ reflectType W t = (W.defs p).impl ∧ assignableType W t = (W.defs p).target ∧
      (extract W v t = match (W.defs p).extractor with | some f => f v | none => .panic) := by
    intro t ht
    refine ⟨?_, ht.reflectType, ht.assignableType, ?_⟩ <;> cases ht <;> rfl
  cases h with
  | made t ht => exact made t ht
  | exact t w ht => exact made t ht

example : name Ex.W (.exact (.param 7 (.named 0) [.int 1]) (.host 2)) = [97] ∧
    extract Ex.W (.host 2) (.exact (.param 7 (.named 0) [.int 1]) (.host 2)) = .ok (.data (.int 3)) :=
  have := C78_promoted Ex.W 0 _ (.exact _ (.host 2) (.param 7 [.int 1])) (.host 2)
  ⟨this.1, this.2.2.2⟩

/-! ## Equality -/

/-- **C78** Two types, made from registered ones, are equal if they have the same name and equal parameters, or none both; exact types, which
are equal to exact types only, if their values are equal. -/
theorem C78_equal (W : World) (p q : Nat) :
    (equal W (.named p) (.named q) = true ↔ name W (.named p) = name W (.named q)) ∧
    (∀ i j ps qs, equal W (.param i (.named p) ps) (.param j (.named q) qs) = true ↔
      name W (.named p) = name W (.named q) ∧ Value.eq (.arr ps) (.arr qs) = true) ∧
    (∀ j qs, equal W (.named p) (.param j (.named q) qs) = false ∧ equal W (.param j (.named q) qs) (.named p) = false) ∧
    (∀ t u v w, equal W (.exact t v) (.exact u w) = W.veq v w) ∧
    ∀ t u v, Made p t → equal W t (.exact u v) = false ∧ equal W (.exact u v) t = false := by
  refine ⟨?_, ?_, ?_, fun _ _ _ _ => rfl, ?_⟩
  · simp [equal, name]
  · intro i j ps qs
    simp [equal, name, Value.eq]
  · intro j qs; exact ⟨rfl, rfl⟩
  · intro t u v h; cases h <;> exact ⟨rfl, rfl⟩

example : equal Ex.W (.param 1 (.named 0) [.int 1]) (.param 2 (.named 0) [.int 1]) = true ∧
    equal Ex.W (.param 1 (.named 0) [.int 1]) (.named 0) = false :=
  ⟨((C78_equal Ex.W 0 0).2.1 1 2 _ _).2 ⟨rfl, by decide +kernel⟩, ((C78_equal Ex.W 0 0).2.2.1 1 _).2⟩

/-- **C78** Equality of named types is an equivalence, and equal types have the same hash code, provided that the values of exact types
are compared and hashed properly. -/
theorem C78_equivalence (W : World) (S : V → Prop) (L : LawfulValues W S) :
    (∀ t, Proper S t → equal W t t = true) ∧
    (∀ t u, Proper S t → Proper S u → equal W t u = true → equal W u t = true) ∧
    (∀ t u w, Proper S t → Proper S u → Proper S w → equal W t u = true → equal W u w = true → equal W t w = true) ∧
    (∀ t u, Proper S t → Proper S u → equal W t u = true → hashCode W t = hashCode W u) := by
  refine ⟨?_, ?_, ?_, ?_⟩
  · intro t
    induction t with
    | named p => simp [equal]
    | param i t ps ih =>
      rintro ⟨h1, h2⟩
      simp only [equal, ih h1, Bool.true_and]
      exact Value.slice_refl Value.laws h2
    | exact t v ih => rintro ⟨_, h⟩; exact L.refl v h
  · intro t
    induction t with
    | named p =>
      intro u _ _ h
      cases u <;> simp_all [equal]
    | param i t ps ih =>
      rintro u ⟨h1, h2⟩ hu h
      cases u with
      | param j u qs =>
        simp only [equal, Bool.and_eq_true] at h ⊢
        exact ⟨ih u h1 hu.1 h.1, Value.slice_symm Value.laws h2 hu.2 h.2⟩
      | _ => simp [equal] at h
    | exact t v ih =>
      rintro u ⟨_, h1⟩ hu h
      cases u with
      | exact u w => exact L.symm v w h1 hu.2 h
      | _ => simp [equal] at h
  · intro t
    induction t with
    | named p =>
      intro u w _ _ _ h h'
      cases u <;> cases w <;> simp_all [equal]
    | param i t ps ih =>
      rintro u w ⟨h1, h2⟩ hu hw h h'
      cases u with
      | param j u qs =>
        cases w with
        | param k w rs =>
          simp only [equal, Bool.and_eq_true] at h h' ⊢
          exact ⟨ih u w h1 hu.1 hw.1 h.1 h'.1, Value.slice_trans Value.laws h2 hu.2 hw.2 h.2 h'.2⟩
        | _ => simp [equal] at h'
      | _ => simp [equal] at h
    | exact t v ih =>
      rintro u w ⟨_, h1⟩ hu hw h h'
      cases u with
      | exact u x =>
        cases w with
        | exact w y => exact L.trans v x y h1 hu.2 hw.2 h h'
        | _ => simp [equal] at h'
      | _ => simp [equal] at h
  · intro t
    induction t with
    | named p =>
      intro u _ _ h
      cases u <;> simp_all [equal, hashCode]
    | param i t ps ih =>
      rintro u ⟨h1, h2⟩ hu h
      cases u with
      | param j u qs =>
        simp only [equal, Bool.and_eq_true] at h
        simp only [hashCode, ih u h1 hu.1 h.1, Value.hash, Value.hashes_eq, Value.slice_hash Value.laws h2 hu.2 h.2]
      | _ => simp [equal] at h
    | exact t v ih =>
      rintro u ⟨_, h1⟩ hu h
      cases u with
      | exact u w => simp only [hashCode, L.hash v w h1 hu.2 h]
      | _ => simp [equal] at h

theorem Ex.lawful : LawfulValues Ex.W fun v => ∃ x, v = .host x where
  refl := by rintro _ ⟨x, rfl⟩; simp [World.veq, Ex.W]
  symm := by rintro _ _ ⟨x, rfl⟩ ⟨y, rfl⟩; simp only [World.veq, Ex.W, beq_iff_eq]; exact Eq.symm
  trans := by rintro _ _ _ ⟨x, rfl⟩ ⟨y, rfl⟩ ⟨z, rfl⟩; simp only [World.veq, Ex.W, beq_iff_eq]; exact Eq.trans
  hash := by rintro _ _ ⟨x, rfl⟩ ⟨y, rfl⟩; simp only [World.veq, World.vhash, Ex.W, beq_iff_eq]; rintro rfl; rfl

example : hashCode Ex.W (.param 1 (.named 0) [.int 1]) = hashCode Ex.W (.param 2 (.named 0) [.int 1]) :=
  (C78_equivalence Ex.W _ Ex.lawful).2.2.2 _ _ ⟨trivial, by simp [Value.WF]⟩ ⟨trivial, by simp [Value.WF]⟩ (by decide +kernel)

/-! ## Generic types and soundness -/

/-- **C78** The generic type of an exact type is the type that it was made with; that of a type with parameters is the registered type. -/
theorem C78_generic (p : Nat) (t : NT) (h : Made p t) (v : V) : generic (.exact t v) = t ∧ generic t = .named p :=
  ⟨rfl, h.generic⟩
example : generic (.exact (.param 7 (.named 0) [.int 1]) (.host 2)) = .param 7 (.named 0) [.int 1] ∧
    generic (.param 7 (.named 0) [.int 1]) = .named 0 := C78_generic 0 _ (.param 7 [.int 1]) _

/-- **C78** does not hold: the generic type of an exact type need not be generic: it keeps its parameters, which its own generic type
does not have. -/
theorem C78_generic_violated : ∃ t, Over 0 t ∧ generic (generic t) ≠ generic t :=
  ⟨.exact (.param 7 (.named 0) [.int 1]) (.host 2), .exact _ _ (.param 7 _), by simp [generic]⟩

/-- **C78** (partial) A value that is an instance of a type that can be assigned to `t` is an instance of `t`.  Partial: the type to be
assigned has no interface, and neither has a checker. -/
theorem C78_sound_partial (W : World) (p q : Nat) (t u : NT) (ht : Made p t) (hu : Made q u) (h1 : (W.defs p).checker = none)
    (h2 : (W.defs q).checker = none) (b c : GoType) (hb : (W.defs p).target = some b) (hi : (W.defs q).ifd = none)
    (hc : (W.defs q).impl = some c) (hcc : c.iface = false) (h : assignable W t (.nt u) = .ok true) (v : V) (hv : instance? W u v = .ok true)
    (hval : ∀ x, v = .host x → ∃ r a, IsValue W x r a) : instance? W t v = .ok true := by
  have htu : (W.defs q).target = some c := by simp [Def.target, hi, hc]
  obtain ⟨i1, i2⟩ := C78_instance W p t b ht h1 hb
  obtain ⟨j1, j2⟩ := C78_instance W q u c hu h2 htu
  cases v with
  | data d => rw [j2] at hv; cases hv
  | host x =>
    obtain ⟨r, a, hx⟩ := hval x rfl
    obtain ⟨y, e1, e2⟩ := i1 x r a hx
    obtain ⟨z, e3, e4⟩ := j1 x r a hx
    rw [e3] at hv
    cases hv
    have hac : a = c := by
      rcases e4.1 rfl with rfl | ⟨hf, _⟩
      · rfl
      · rw [hcc] at hf; cases hf
    subst hac
    rw [default_nt ht h1 (by rw [hu.reflectType, hc]) hb] at h
    rw [e1, e2.2 ((fits_iff a b).1 (Out.ok.inj h))]

example : assignable Ex.W (.named 1) (.nt (.named 0)) = .ok true ∧ instance? Ex.W (.named 1) (.host 0) = .ok true :=
  ⟨rfl, C78_sound_partial Ex.W 1 0 (.named 1) (.named 0) .named .named rfl rfl Ex.I Ex.A rfl rfl rfl rfl rfl (.host 0) rfl
    fun x e => by cases e; exact ⟨_, _, Ex.v0⟩⟩

/-- A world as before in which type 0 is implemented by `B`: it accepts type 1, which is implemented by `B` too but has instances
that are implemented by `A`. -/
def Ex.W' : World :=
  { Ex.W with defs := fun | 0 => { Ex.defs 0 with impl := some Ex.B } | 1 => Ex.defs 1 | _ => { Ex.defs 0 with name := [100] },
              typeOf := fun x => .nt (.exact (.named x) (.host x)) }

/-- **C78** does not hold: whether a type can be assigned is decided by its implementation, but its instances by its interface.  A type with
an interface can be assigned to a type none of whose instances some of its own are. -/
theorem C78_sound_violated : ∃ W t u x, IsValue W x 2 Ex.A ∧ Made 0 t ∧ Made 1 u ∧ assignable W t (.nt u) = .ok true ∧
    instance? W u (.host x) = .ok true ∧ instance? W t (.host x) = .ok false :=
  ⟨Ex.W', .named 0, .named 1, 2, ⟨_, .named, rfl, rfl⟩, .named, .named, rfl, rfl, rfl⟩

theorem same_iff (t : NT) (u : T) : same t u = true ↔ SameObject t u := by
  constructor
  · intro h
    unfold same at h
    split at h
    · rw [beq_iff_eq] at h; subst h; exact .named _
    · rw [beq_iff_eq] at h; subst h; exact .param _ _ _ _ _
    · cases h
  · intro h
    cases h <;> simp [same]

theorem assignableAll_iff (W : World) (t : NT) (ts : List T) :
    assignableAll W t ts = .ok true ↔ ∀ u ∈ ts, same t u = true ∨ assignable W t u = .ok true := by
  induction ts with
  | nil => simp [assignableAll]
  | cons u us ih =>
    unfold assignableAll
    by_cases hs : same t u = true
    · simp [hs, Out.bind, ih]
    · simp only [hs, Bool.false_eq_true, if_false, List.mem_cons, forall_eq_or_imp, false_or]
      cases hu : assignable W t u with
      | panic => simp [Out.bind]
      | ok b => cases b <;> simp [Out.bind, ih]

/-- **C78** A named type without a checker accepts a union if the union is not empty and it accepts every member that it is not itself; an
intersection if it accepts every member. -/
theorem C78_union (W : World) (p : Nat) (t : NT) (h : Made p t) (hc : (W.defs p).checker = none) (ts : List T) (o : T) :
    (o = .anyOf ts ∨ o = .oneOf ts → (assignable W t o = .ok true ↔ ts ≠ [] ∧ ∀ u ∈ ts, SameObject t u ∨ assignable W t u = .ok true)) ∧
    (assignable W t (.allOf ts) = .ok true ↔ ∀ u ∈ ts, SameObject t u ∨ assignable W t u = .ok true) := by
  simp only [← same_iff]
  refine ⟨fun ho => ?_, ?_⟩
  · have ha : accepts W t o = .ok false := by
      rw [h.accepts, checker, hc]
      rcases ho with rfl | rfl <;> rfl
    rw [← assignableAll_iff]
    unfold assignable
    rw [ha]
    rcases ho with rfl | rfl <;> cases hr : assignableAll W t ts <;> simp [hr, Out.bind, and_comm]
  · have ha : accepts W t (.allOf ts) = .ok false := by
      rw [h.accepts, checker, hc]
      rfl
    rw [← assignableAll_iff]
    unfold assignable
    rw [ha]
    rfl

example : assignable Ex.W (.named 1) (.anyOf [.nt (.named 0), .nt (.named 1)]) = .ok true ∧ assignable Ex.W (.named 1) (.anyOf []) ≠ .ok true :=
  ⟨((C78_union Ex.W 1 _ .named rfl _ _).1 (.inl rfl)).2 ⟨by simp, by
      intro u hu
      simp at hu
      rcases hu with rfl | rfl
      · exact .inr rfl
      · exact .inl (.named _)⟩,
    fun h => (((C78_union Ex.W 1 _ .named rfl _ _).1 (.inl rfl)).1 h).1 rfl⟩

mutual
theorem exact_accepts (W : World) (t : NT) (v : V) : ∀ o : T, assignable W (.exact t v) o = .ok true ↔ OnlyValue W v o
  | .nt u => by
    rw [assignable_nt]
    cases u with
    | exact u w =>
      show Out.ok (W.veq v w) = .ok true ↔ _
      exact ⟨fun h => .exact _ _ (by simpa using h), fun h => by cases h with | exact _ _ h => rw [h]⟩
    | named q => exact ⟨fun h => (by cases h), fun h => by cases h⟩
    | param i u ps => exact ⟨fun h => (by cases h), fun h => by cases h⟩
  | .plain => by
    rw [assignable_plain]
    exact ⟨fun h => (by cases h), fun h => by cases h⟩
  | .allOf ts => by
    have := exact_acceptsAll W t v ts
    unfold assignable
    show assignableAll W (.exact t v) ts = .ok true ↔ _
    rw [this]
    exact ⟨.allOf _, fun h => by cases h with | allOf _ h => exact h⟩
  | .anyOf ts => by
    have := exact_acceptsAll W t v ts
    unfold assignable
    show ((assignableAll W (.exact t v) ts).bind fun b => .ok (b && !ts.isEmpty)) = .ok true ↔ _
    have e : ((assignableAll W (.exact t v) ts).bind fun b => Out.ok (b && !ts.isEmpty)) = .ok true ↔ assignableAll W (.exact t v) ts = .ok true ∧ ts ≠ [] := by
      cases assignableAll W (.exact t v) ts <;> simp [Out.bind]
    rw [e, this]
    exact ⟨fun h => .anyOf _ h.2 h.1, fun h => by cases h with | anyOf _ h0 h => exact ⟨h, h0⟩⟩
  | .oneOf ts => by
    have := exact_acceptsAll W t v ts
    unfold assignable
    show ((assignableAll W (.exact t v) ts).bind fun b => .ok (b && !ts.isEmpty)) = .ok true ↔ _
    have e : ((assignableAll W (.exact t v) ts).bind fun b => Out.ok (b && !ts.isEmpty)) = .ok true ↔ assignableAll W (.exact t v) ts = .ok true ∧ ts ≠ [] := by
      cases assignableAll W (.exact t v) ts <;> simp [Out.bind]
    rw [e, this]
    exact ⟨fun h => .oneOf _ h.2 h.1, fun h => by cases h with | oneOf _ h0 h => exact ⟨h, h0⟩⟩
theorem exact_acceptsAll (W : World) (t : NT) (v : V) : ∀ ts : List T, assignableAll W (.exact t v) ts = .ok true ↔ ∀ o ∈ ts, OnlyValue W v o
  | [] => by simp [assignableAll]
  | o :: os => by
    have h1 := exact_accepts W t v o
    have h2 := exact_acceptsAll W t v os
    have hs : same (.exact t v) o = false := by cases o <;> rfl
    unfold assignableAll
    simp only [hs, Bool.false_eq_true, if_false, List.mem_cons, forall_eq_or_imp, ← h1, ← h2]
    cases hu : assignable W (.exact t v) o with
    | panic => simp [Out.bind]
    | ok b => cases b <;> simp [Out.bind]
end

/-- **C78** The exact type of a value accepts exact types of values that equal it, combinations of such, and no other type. -/
theorem C78_exact_accepts (W : World) (t : NT) (v : V) (o : T) : assignable W (.exact t v) o = .ok true ↔ OnlyValue W v o :=
  exact_accepts W t v o

example : assignable Ex.W (.exact (.named 0) (.data (.int 1))) (.oneOf [.nt (.exact (.named 1) (.data (.int 1)))]) = .ok true ∧
    assignable Ex.W (.exact (.named 0) (.data (.int 1))) .plain ≠ .ok true :=
  ⟨(C78_exact_accepts _ _ _ _).2 (.oneOf _ (by simp) (by simpa using .exact _ _ (by decide +kernel))), fun h => by cases (C78_exact_accepts _ _ _ _).1 h⟩

/-! ## The registry -/

theorem reach_inv {W : World} {r : Reg} (h : Reachable W r) : (r.map (·.1)).Nodup ∧ ∀ e ∈ r, (W.defs e.2).name = e.1 := by
  induction h with
  | empty => simp
  | step r r' op _ hn hs ih =>
    cases op with
    | add n p =>
      simp only [Reg.step] at hs
      split at hs
      · cases hs
      · rename_i hl
        cases hs
        refine ⟨?_, ?_⟩
        · simp only [List.map_cons, List.nodup_cons]
          refine ⟨?_, ih.1⟩
          intro hm
          apply hl
          obtain ⟨e, he, rfl⟩ := List.mem_map.1 hm
          cases hx : List.lookup e.1 r with
          | none => have := List.lookup_eq_none_iff.1 hx e he; simp at this
          | some _ => rfl
        · intro e he
          rcases List.mem_cons.1 he with rfl | he
          · exact hn n p rfl
          · exact ih.2 e he
    | remove n =>
      simp only [Reg.step, Option.some.injEq] at hs
      subst hs
      refine ⟨?_, fun e he => ih.2 e (List.mem_filter.1 he).1⟩
      exact List.Nodup.sublist (List.Sublist.map _ List.filter_sublist) ih.1

/-- **C78** Whatever types have been registered and removed, and in whatever order the registry lists them: `NamedFromReflected` finds a
registered type with that implementation if there is one.  It is the type that its name stands for.  (The nil Go type finds a type
without an implementation.) -/
theorem C78_reflected (W : World) (r r' : Reg) (h : Reachable W r) (hp : r.Perm r') (rt : Option GoType) :
    (∀ p, r'.fromReflected W rt = some p → (W.defs p).impl = rt ∧ r.get (W.defs p).name = some p) ∧
      (r'.fromReflected W rt = none ↔ ∀ n p, r.get n = some p → (W.defs p).impl ≠ rt) := by
  obtain ⟨h1, h2⟩ := reach_inv h
  have look : ∀ r : Reg, (r.map (·.1)).Nodup → ∀ n p, (n, p) ∈ r → r.lookup n = some p := by
    intro r
    induction r with
    | nil => simp
    | cons e r ih =>
      intro hn n p hm
      simp only [List.map_cons, List.nodup_cons] at hn
      obtain ⟨m, q⟩ := e
      rcases List.mem_cons.1 hm with hm | hm'
      · cases hm; simp [List.lookup]
      · have hne : (n == m) = false := by
          rw [beq_eq_false_iff_ne]
          rintro rfl
          exact hn.1 (List.mem_map.2 ⟨_, hm', rfl⟩)
        simp only [List.lookup, hne, ih hn.2 n p hm']
  have mem : ∀ r : Reg, ∀ n p, r.lookup n = some p → (n, p) ∈ r := by
    intro r
    induction r with
    | nil => simp
    | cons e r ih =>
      obtain ⟨m, q⟩ := e
      intro n p hl
      simp only [List.lookup] at hl
      split at hl
      · rename_i hb
        have := eq_of_beq hb
        subst this
        cases hl
        simp
      · exact List.mem_cons_of_mem _ (ih n p hl)
  constructor
  · intro p hf
    simp only [Reg.fromReflected, Option.map_eq_some_iff] at hf
    obtain ⟨e, he, rfl⟩ := hf
    have hi := List.find?_some he
    have hm := hp.mem_iff.2 (List.mem_of_find?_eq_some he)
    refine ⟨(of_decide_eq_true hi).symm, ?_⟩
    rw [h2 e hm]
    exact look r h1 e.1 e.2 hm
  · simp only [Reg.fromReflected, Option.map_eq_none_iff, List.find?_eq_none, decide_eq_true_eq]
    constructor
    · intro hf n p hg e
      exact hf (n, p) (hp.mem_iff.1 (mem r n p hg)) e.symm
    · intro hf e he hrt
      exact hf e.1 e.2 (look r h1 e.1 e.2 (hp.mem_iff.2 he)) hrt.symm

theorem Ex.reachable : Reachable Ex.W [([98], 1)] :=
  .step [([98], 1), ([97], 0)] _ (.remove [97])
    (.step [([97], 0)] _ (.add [98] 1) (.step [] _ (.add [97] 0) .empty (fun n p e => by cases e; rfl) rfl) (fun n p e => by cases e; rfl) rfl)
    (fun n p e => by cases e) rfl

example : Reg.fromReflected Ex.W [([98], 1)] (some Ex.B) = some 1 ∧ Reg.fromReflected Ex.W [([98], 1)] (some Ex.A) = none :=
  ⟨rfl, (C78_reflected Ex.W _ _ Ex.reachable (.refl _) _).2.2 fun n p h => by
    simp only [Reg.get, List.lookup] at h
    split at h
    · cases h; decide
    · cases h⟩

end Verif.Named
