import Verif.Types.Ctor
import Verif.Types.Props
/-!
# C104: the constructors of types with any number of arguments

What the arguments may be (`SizeArgs`, `ArrayArgs`, `MapArgs`), and that each constructor accepts these and no others, and makes the type
that they describe.
-/
set_option autoImplicit false
set_option linter.unusedSimpArgs false
namespace Verif.Types
open Verif.Value

variable {E : Env}

/-- No sizes, a minimum, or a minimum and a maximum -/
inductive SizeArgs : List CArg → Int → Int → Prop
  | none : SizeArgs [] 0 maxInt
  | min (i : BitVec 64) : SizeArgs [.val (.int i)] i.toInt maxInt
  | both (i j : BitVec 64) : SizeArgs [.val (.int i), .val (.int j)] i.toInt j.toInt

/-- The arguments of `tf.Array`: maybe the type of the elements, and then sizes -/
inductive ArrayArgs : List CArg → Ty → Int → Int → Prop
  | sizes {as : List CArg} {lo hi : Int} : SizeArgs as lo hi → ArrayArgs as .any lo hi
  | elem (t : Ty) {as : List CArg} {lo hi : Int} : SizeArgs as lo hi → ArrayArgs (.ty t :: as) t lo hi

/-- The arguments of `tf.Map`: maybe the types of the keys and values, and then sizes -/
inductive MapArgs : List CArg → Ty → Ty → Int → Int → Prop
  | sizes {as : List CArg} {lo hi : Int} : SizeArgs as lo hi → MapArgs as .any .any lo hi
  | types (k v : Ty) {as : List CArg} {lo hi : Int} : SizeArgs as lo hi → MapArgs (.ty k :: .ty v :: as) k v lo hi

theorem sizedString_all : sizedStringType 0 maxInt = .strT := rfl
theorem sizedBinary_all : sizedBinaryType 0 maxInt = .bin 0 maxInt := rfl
theorem newArray_all (o : Oid) : newArrayType o .any 0 maxInt = some .arrT := rfl
theorem newMap_all (o : Oid) : newMapType o .any .any 0 maxInt = .mapT := rfl

theorem CArg.int_ok {n : Nat} {a : CArg} {i : Int} (h : a.int n = .ok i) : ∃ x, a = .val (.int x) ∧ x.toInt = i := by
  unfold CArg.int at h
  split at h
  · cases h; exact ⟨_, rfl, rfl⟩
  · cases h

theorem CArg.int_error {n : Nat} {a : CArg} {e : CArgErr} (h : a.int n = .error e) : e = .arg n ∧ ∀ x, a ≠ .val (.int x) := by
  unfold CArg.int at h
  split at h
  · cases h
  · rename_i hn; cases h; exact ⟨rfl, fun x => by rintro rfl; exact hn x rfl⟩

theorem CArg.type_ok {n : Nat} {a : CArg} {t : Ty} (h : a.type n = .ok t) : a = .ty t := by
  unfold CArg.type at h
  split at h
  · cases h; rfl
  · cases h

theorem CArg.type_error {n : Nat} {a : CArg} {e : CArgErr} (h : a.type n = .error e) : e = .arg n ∧ ∀ x, a ≠ .ty x := by
  unfold CArg.type at h
  split at h
  · cases h
  · rename_i hn; cases h; exact ⟨rfl, fun x => by rintro rfl; exact hn x rfl⟩

theorem bind_ok {α β : Type} {x : Except CArgErr α} {f : α → Except CArgErr β} {b : β} : (x >>= f) = .ok b ↔ ∃ a, x = .ok a ∧ f a = .ok b := by
  cases x <;> simp [bind, Except.bind]

theorem bind_error {α β : Type} {x : Except CArgErr α} {f : α → Except CArgErr β} {e : CArgErr} :
    (x >>= f) = .error e ↔ x = .error e ∨ ∃ a, x = .ok a ∧ f a = .error e := by
  cases x <;> simp [bind, Except.bind]

theorem pure_ok {α : Type} {a b : α} : (pure a : Except CArgErr α) = .ok b ↔ a = b := by simp [pure, Except.pure]
theorem pure_error {α : Type} {a : α} {e : CArgErr} : (pure a : Except CArgErr α) = .error e ↔ False := by simp [pure, Except.pure]

/-! ### Which arguments are accepted -/

theorem stringType_sizes {as : List CArg} {t : Ty} (h : stringType as = .ok t) :
    (∃ s, as = [.val (.str s)] ∧ t = .exact (.str s)) ∨ ∃ lo hi, SizeArgs as lo hi ∧ t = sizedStringType lo hi := by
  unfold stringType at h
  split at h
  · cases h; exact .inr ⟨_, _, .none, rfl⟩
  · cases h; exact .inl ⟨_, rfl, rfl⟩
  · obtain ⟨i, h1, h2⟩ := bind_ok.1 h
    obtain ⟨x, rfl, rfl⟩ := CArg.int_ok h1
    rw [pure_ok] at h2
    exact .inr ⟨_, _, .min x, h2.symm⟩
  · obtain ⟨i, h1, h2⟩ := bind_ok.1 h
    obtain ⟨j, h3, h4⟩ := bind_ok.1 h2
    obtain ⟨x, rfl, rfl⟩ := CArg.int_ok h1
    obtain ⟨y, rfl, rfl⟩ := CArg.int_ok h3
    rw [pure_ok] at h4
    exact .inr ⟨_, _, .both x y, h4.symm⟩
  · cases h

theorem stringType_of_sizes {as : List CArg} {lo hi : Int} (h : SizeArgs as lo hi) : stringType as = .ok (sizedStringType lo hi) := by
  cases h <;> rfl

theorem binaryType_sizes {as : List CArg} {t : Ty} (h : binaryType as = .ok t) : ∃ lo hi, SizeArgs as lo hi ∧ t = sizedBinaryType lo hi := by
  unfold binaryType at h
  split at h
  · cases h; exact ⟨_, _, .none, rfl⟩
  · obtain ⟨i, h1, h2⟩ := bind_ok.1 h
    obtain ⟨x, rfl, rfl⟩ := CArg.int_ok h1
    rw [pure_ok] at h2
    exact ⟨_, _, .min x, h2.symm⟩
  · obtain ⟨i, h1, h2⟩ := bind_ok.1 h
    obtain ⟨j, h3, h4⟩ := bind_ok.1 h2
    obtain ⟨x, rfl, rfl⟩ := CArg.int_ok h1
    obtain ⟨y, rfl, rfl⟩ := CArg.int_ok h3
    rw [pure_ok] at h4
    exact ⟨_, _, .both x y, h4.symm⟩
  · cases h

theorem binaryType_of_sizes {as : List CArg} {lo hi : Int} (h : SizeArgs as lo hi) : binaryType as = .ok (sizedBinaryType lo hi) := by
  cases h <;> rfl

theorem arrayType_args {o : Oid} {as : List CArg} {t : Option Ty} (h : arrayType o as = .ok t) :
    ∃ e lo hi, ArrayArgs as e lo hi ∧ t = newArrayType o e lo hi := by
  unfold arrayType at h
  split at h
  · cases h; exact ⟨_, _, _, .sizes .none, rfl⟩
  · unfold arrayTypeOne at h
    split at h
    · cases h; exact ⟨_, _, _, .elem _ .none, rfl⟩
    · cases h; exact ⟨_, _, _, .sizes (.min _), rfl⟩
    · cases h
  · obtain ⟨j, h1, h2⟩ := bind_ok.1 h
    obtain ⟨y, rfl, rfl⟩ := CArg.int_ok h1
    split at h2
    · cases h2; exact ⟨_, _, _, .elem _ (.min _), rfl⟩
    · cases h2; exact ⟨_, _, _, .sizes (.both _ _), rfl⟩
    · cases h2
  · obtain ⟨t, h1, h2⟩ := bind_ok.1 h
    obtain ⟨i, h3, h4⟩ := bind_ok.1 h2
    obtain ⟨j, h5, h6⟩ := bind_ok.1 h4
    cases CArg.type_ok h1
    obtain ⟨x, rfl, rfl⟩ := CArg.int_ok h3
    obtain ⟨y, rfl, rfl⟩ := CArg.int_ok h5
    rw [pure_ok] at h6
    exact ⟨_, _, _, .elem _ (.both x y), h6.symm⟩
  · cases h

theorem arrayType_of_args {o : Oid} {as : List CArg} {e : Ty} {lo hi : Int} (h : ArrayArgs as e lo hi) :
    arrayType o as = .ok (newArrayType o e lo hi) := by
  rcases h with ⟨h⟩ | ⟨_, h⟩ <;> cases h <;> rfl

theorem mapType_args {o : Oid} {as : List CArg} {t : Ty} (h : mapType o as = .ok t) :
    ∃ k v lo hi, MapArgs as k v lo hi ∧ t = newMapType o k v lo hi := by
  unfold mapType at h
  split at h
  · cases h; exact ⟨_, _, _, _, .sizes .none, rfl⟩
  · obtain ⟨i, h1, h2⟩ := bind_ok.1 h
    obtain ⟨x, rfl, rfl⟩ := CArg.int_ok h1
    rw [pure_ok] at h2
    exact ⟨_, _, _, _, .sizes (.min x), h2.symm⟩
  · unfold mapTypeTwo at h
    split at h
    · obtain ⟨u, h1, h2⟩ := bind_ok.1 h
      cases CArg.type_ok h1
      rw [pure_ok] at h2
      exact ⟨_, _, _, _, .types _ _ .none, h2.symm⟩
    · obtain ⟨j, h1, h2⟩ := bind_ok.1 h
      obtain ⟨y, rfl, rfl⟩ := CArg.int_ok h1
      rw [pure_ok] at h2
      exact ⟨_, _, _, _, .sizes (.both _ y), h2.symm⟩
    · cases h
  · obtain ⟨t, h1, h2⟩ := bind_ok.1 h
    obtain ⟨u, h3, h4⟩ := bind_ok.1 h2
    obtain ⟨j, h5, h6⟩ := bind_ok.1 h4
    cases CArg.type_ok h1
    cases CArg.type_ok h3
    obtain ⟨y, rfl, rfl⟩ := CArg.int_ok h5
    rw [pure_ok] at h6
    exact ⟨_, _, _, _, .types _ _ (.min y), h6.symm⟩
  · obtain ⟨t, h1, h2⟩ := bind_ok.1 h
    obtain ⟨u, h3, h4⟩ := bind_ok.1 h2
    obtain ⟨i, h5, h6⟩ := bind_ok.1 h4
    obtain ⟨j, h7, h8⟩ := bind_ok.1 h6
    cases CArg.type_ok h1
    cases CArg.type_ok h3
    obtain ⟨x, rfl, rfl⟩ := CArg.int_ok h5
    obtain ⟨y, rfl, rfl⟩ := CArg.int_ok h7
    rw [pure_ok] at h8
    exact ⟨_, _, _, _, .types _ _ (.both x y), h8.symm⟩
  · cases h

theorem mapType_of_args {o : Oid} {as : List CArg} {k v : Ty} {lo hi : Int} (h : MapArgs as k v lo hi) :
    mapType o as = .ok (newMapType o k v lo hi) := by
  rcases h with ⟨h⟩ | ⟨_, _, h⟩ <;> cases h <;> rfl

/-! ### C104 -/

/-- **C104, strings.**  `tf.String` with sizes makes the type of the strings of these sizes, with a string the type of that string, and it panics for
any other arguments. -/
theorem C104_string (as : List CArg) :
    (∀ lo hi, SizeArgs as lo hi → ∃ t, stringType as = .ok t ∧ ∀ v, Fits v →
      (instanceOf E t v = true ↔ ∃ s : Str, v = .str s ∧ InSize lo hi (len s))) ∧
    (∀ s, as = [.val (.str s)] → ∃ t, stringType as = .ok t ∧ ∀ v, instanceOf E t v = true ↔ v = .str s) ∧
    ((∃ t, stringType as = .ok t) → (∃ lo hi, SizeArgs as lo hi) ∨ ∃ s, as = [.val (.str s)]) := by
  refine ⟨fun lo hi h => ⟨_, stringType_of_sizes h, fun v hv => C30_string lo hi hv⟩, ?_, ?_⟩
  · rintro s rfl
    refine ⟨_, rfl, fun v => ?_⟩
    rw [instanceOf_has (by simp [Ty.Acyc])]
    cases v <;> simp [has, hasP, eq]
    exact eq_comm
  · rintro ⟨t, h⟩
    rcases stringType_sizes h with ⟨s, h, -⟩ | ⟨lo, hi, h, -⟩
    · exact .inr ⟨s, h⟩
    · exact .inl ⟨lo, hi, h⟩

example : stringType [.val (Ex.i 5), .val (Ex.i 2)] = .ok (.sizedStr 2 5) ∧ stringType [.val (Ex.s 97)] = .ok (.exact (Ex.s 97)) ∧
    stringType [.val (Ex.s 97), .val (Ex.i 2)] = .error (.arg 0) := ⟨rfl, rfl, rfl⟩

/-- **C104, binaries.** -/
theorem C104_binary (as : List CArg) :
    (∀ lo hi, SizeArgs as lo hi → ∃ t, binaryType as = .ok t ∧ ∀ v,
      (instanceOf E t v = true ↔ ∃ b : List UInt8, v = .bin b ∧ InSize lo hi (len b))) ∧
    ((∃ t, binaryType as = .ok t) → ∃ lo hi, SizeArgs as lo hi) := by
  refine ⟨fun lo hi h => ⟨_, binaryType_of_sizes h, fun v => C30_binary lo hi v⟩, ?_⟩
  rintro ⟨t, h⟩
  obtain ⟨lo, hi, h, -⟩ := binaryType_sizes h
  exact ⟨lo, hi, h⟩

example : binaryType [.val (Ex.i 5)] = .ok (.bin 5 maxInt) ∧ binaryType [.ty .intT] = .error (.arg 0) := ⟨rfl, rfl⟩

/-- **C104, arrays.**  `tf.Array` with the type of the elements and sizes makes the type of the arrays of these sizes with such elements; it panics for one
element of the nil type, and for any other arguments. -/
theorem C104_array (o : Oid) (as : List CArg) :
    (∀ e lo hi, ArrayArgs as e lo hi → ¬ (e = .nilT ∧ Max.max 0 lo = 1 ∧ Max.max 0 hi = 1) → e.Acyc → ¬ e.occ o → ∃ t, arrayType o as = .ok (some t) ∧ ∀ v, Fits v →
      (instanceOf E t v = true ↔ ∃ vs, v = .arr vs ∧ InSize lo hi (len vs) ∧ ∀ x ∈ vs, instanceOf E e x = true)) ∧
    ((∃ t, arrayType o as = .ok (some t)) → ∃ e lo hi, ArrayArgs as e lo hi ∧ ¬ (e = .nilT ∧ Max.max 0 lo = 1 ∧ Max.max 0 hi = 1)) := by
  constructor
  · intro e lo hi h hn ha ho
    cases ht : newArrayType o e lo hi with
    | none => exact absurd ((C30_array_panics o e lo hi).1 ht) hn
    | some t => exact ⟨t, by rw [arrayType_of_args h, ht], fun v hv => C30_array ht ha ho hv⟩
  · rintro ⟨t, h⟩
    obtain ⟨e, lo, hi, h, ht⟩ := arrayType_args h
    refine ⟨e, lo, hi, h, fun hn => ?_⟩
    rw [(C30_array_panics o e lo hi).2 hn] at ht
    cases ht

example : arrayType (.user 0) [.ty .intT, .val (Ex.i 2)] = .ok (some (.sizedArr (.user 0) .intT 2 maxInt)) ∧
    arrayType (.user 0) [.val (Ex.i 2), .val (Ex.i 3)] = .ok (some (.sizedArr (.user 0) .any 2 3)) ∧
    arrayType (.user 0) [.val (Ex.i 2), .val (Ex.i 3), .val (Ex.i 3)] = .error (.arg 0) := ⟨rfl, rfl, rfl⟩
example : ArrayArgs [.ty .intT, .val (Ex.i 2)] .intT 2 maxInt := .elem _ (.min 2)

/-- **C104, maps.** -/
theorem C104_map (o : Oid) (as : List CArg) :
    (∀ k v lo hi, MapArgs as k v lo hi → k.Acyc → v.Acyc → ¬ k.occ o → ¬ v.occ o → ∃ t, mapType o as = .ok t ∧ ∀ x, Fits x →
      (instanceOf E t x = true ↔ ∃ es, x = .map es ∧ InSize lo hi (len es) ∧ ∀ e ∈ es, instanceOf E k e.1 = true ∧ instanceOf E v e.2 = true)) ∧
    ((∃ t, mapType o as = .ok t) → ∃ k v lo hi, MapArgs as k v lo hi) := by
  refine ⟨fun k v lo hi h hk hv hk' hv' => ⟨_, mapType_of_args h, fun x hx => C30_map hk hv hk' hv' hx⟩, ?_⟩
  rintro ⟨t, h⟩
  obtain ⟨k, v, lo, hi, h, -⟩ := mapType_args h
  exact ⟨k, v, lo, hi, h⟩

example : mapType (.user 0) [.ty .strT, .ty .intT, .val (Ex.i 2), .val (Ex.i 3)] = .ok (.sizedMap (.user 0) .strT .intT 2 3) ∧
    mapType (.user 0) [.ty .strT] = .error (.arg 0) ∧ mapType (.user 0) [.ty .strT, .val (Ex.i 2)] = .error (.arg 1) := ⟨rfl, rfl, rfl⟩
example : MapArgs [.ty .strT, .ty .intT, .val (Ex.i 2), .val (Ex.i 3)] .strT .intT 2 3 := .types _ _ (.both 2 3)

/-- An error blames an argument that is there, and no arguments are accepted, as many, that have the same argument in that place and the same first
argument; or it blames the number of arguments, and no arguments, as many, are accepted. -/
def Blames {α : Type} (f : List CArg → Except CArgErr α) (as : List CArg) : CArgErr → Prop
  | .arg n => n < as.length ∧ ∀ bs r, bs.length = as.length → bs[n]? = as[n]? → bs[0]? = as[0]? → f bs ≠ .ok r
  | .count => ∀ bs r, bs.length = as.length → f bs ≠ .ok r

/-- **C104, errors.**  The argument that an error blames is one that can't be there, and the number of arguments is blamed only if no such number is accepted. -/
theorem C104_errors (o : Oid) (as : List CArg) (e : CArgErr) :
    (stringType as = .error e → Blames stringType as e) ∧ (binaryType as = .error e → Blames binaryType as e) ∧
      (arrayType o as = .error e → Blames (arrayType o) as e) ∧ (mapType o as = .error e → Blames (mapType o) as e) := by
  refine ⟨fun h => ?_, fun h => ?_, fun h => ?_, fun h => ?_⟩
  · unfold stringType at h
    split at h
    · cases h
    · cases h
    · rename_i a hn
      obtain ⟨rfl, ha⟩ := CArg.int_error (by simpa only [bind_error, pure_error, and_false, exists_false, or_false] using h)
      refine ⟨by simp, fun bs r hl h0 _ hb => ?_⟩
      rcases stringType_sizes hb with ⟨s, rfl, -⟩ | ⟨lo, hi, hs, -⟩
      · simp at h0; exact hn s h0.symm
      · cases hs <;> simp at hl h0
        exact ha _ h0.symm
    · rename_i a b
      rcases bind_error.1 h with h | ⟨i, -, h⟩
      · obtain ⟨rfl, ha⟩ := CArg.int_error h
        refine ⟨by simp, fun bs r hl h0 _ hb => ?_⟩
        rcases stringType_sizes hb with ⟨s, rfl, -⟩ | ⟨lo, hi, hs, -⟩
        · simp at hl
        · cases hs <;> simp at hl h0
          exact ha _ h0.symm
      · obtain ⟨rfl, ha⟩ := CArg.int_error (by simpa only [bind_error, pure_error, and_false, exists_false, or_false] using h)
        refine ⟨by simp, fun bs r hl h0 _ hb => ?_⟩
        rcases stringType_sizes hb with ⟨s, rfl, -⟩ | ⟨lo, hi, hs, -⟩
        · simp at hl
        · cases hs <;> simp at hl h0
          exact ha _ h0.symm
    · rename_i h1 h2 h3 h4
      cases h
      intro bs r hl hb
      rcases stringType_sizes hb with ⟨s, rfl, -⟩ | ⟨lo, hi, hs, -⟩
      · obtain ⟨a, rfl⟩ := List.length_eq_one_iff.1 hl.symm; exact h3 _ rfl
      · cases hs
        · exact h1 (List.length_eq_zero_iff.1 hl.symm)
        · obtain ⟨a, rfl⟩ := List.length_eq_one_iff.1 hl.symm; exact h3 _ rfl
        · obtain ⟨a, b, rfl⟩ := List.length_eq_two.1 hl.symm; exact h4 _ _ rfl
  · unfold binaryType at h
    split at h
    · cases h
    · rename_i a
      obtain ⟨rfl, ha⟩ := CArg.int_error (by simpa only [bind_error, pure_error, and_false, exists_false, or_false] using h)
      refine ⟨by simp, fun bs r hl h0 _ hb => ?_⟩
      obtain ⟨lo, hi, hs, -⟩ := binaryType_sizes hb
      cases hs <;> simp at hl h0
      exact ha _ h0.symm
    · rename_i a b
      rcases bind_error.1 h with h | ⟨i, -, h⟩
      · obtain ⟨rfl, ha⟩ := CArg.int_error h
        refine ⟨by simp, fun bs r hl h0 _ hb => ?_⟩
        obtain ⟨lo, hi, hs, -⟩ := binaryType_sizes hb
        cases hs <;> simp at hl h0
        exact ha _ h0.symm
      · obtain ⟨rfl, ha⟩ := CArg.int_error (by simpa only [bind_error, pure_error, and_false, exists_false, or_false] using h)
        refine ⟨by simp, fun bs r hl h0 _ hb => ?_⟩
        obtain ⟨lo, hi, hs, -⟩ := binaryType_sizes hb
        cases hs <;> simp at hl h0
        exact ha _ h0.symm
    · rename_i h1 h2 h3
      cases h
      intro bs r hl hb
      obtain ⟨lo, hi, hs, -⟩ := binaryType_sizes hb
      cases hs
      · exact h1 (List.length_eq_zero_iff.1 hl.symm)
      · obtain ⟨a, rfl⟩ := List.length_eq_one_iff.1 hl.symm; exact h2 _ rfl
      · obtain ⟨a, b, rfl⟩ := List.length_eq_two.1 hl.symm; exact h3 _ _ rfl
  · unfold arrayType at h
    split at h
    · cases h
    · rename_i a
      unfold arrayTypeOne at h
      split at h
      · cases h
      · cases h
      · rename_i h1 h2
        cases h
        refine ⟨by simp, fun bs r hl h0 _ hb => ?_⟩
        obtain ⟨e, lo, hi, hs, -⟩ := arrayType_args hb
        rcases hs with ⟨hs⟩ | ⟨_, hs⟩ <;> cases hs <;> simp at hl h0
        · exact h2 _ h0.symm
        · exact h1 _ h0.symm
    · rename_i a b
      rcases bind_error.1 h with h | ⟨j, -, h⟩
      · obtain ⟨rfl, ha⟩ := CArg.int_error h
        refine ⟨by simp, fun bs r hl h1 h0 hb => ?_⟩
        obtain ⟨e, lo, hi, hs, -⟩ := arrayType_args hb
        rcases hs with ⟨hs⟩ | ⟨_, hs⟩ <;> cases hs <;> simp at hl h1
        · exact ha _ h1.symm
        · exact ha _ h1.symm
      · split at h
        · cases h
        · cases h
        · rename_i h2 h3
          cases h
          refine ⟨by simp, fun bs r hl h0 _ hb => ?_⟩
          obtain ⟨e, lo, hi, hs, -⟩ := arrayType_args hb
          rcases hs with ⟨hs⟩ | ⟨_, hs⟩ <;> cases hs <;> simp at hl h0
          · exact h3 _ h0.symm
          · exact h2 _ h0.symm
    · rename_i a b c
      rcases bind_error.1 h with h | ⟨t, -, h⟩
      · obtain ⟨rfl, ha⟩ := CArg.type_error h
        refine ⟨by simp, fun bs r hl h0 _ hb => ?_⟩
        obtain ⟨e, lo, hi, hs, -⟩ := arrayType_args hb
        rcases hs with ⟨hs⟩ | ⟨_, hs⟩ <;> cases hs <;> simp at hl h0
        exact ha _ h0.symm
      · rcases bind_error.1 h with h | ⟨i, -, h⟩
        · obtain ⟨rfl, ha⟩ := CArg.int_error h
          refine ⟨by simp, fun bs r hl h1 h0 hb => ?_⟩
          obtain ⟨e, lo, hi, hs, -⟩ := arrayType_args hb
          rcases hs with ⟨hs⟩ | ⟨_, hs⟩ <;> cases hs <;> simp at hl h1
          exact ha _ h1.symm
        · obtain ⟨rfl, ha⟩ := CArg.int_error (by simpa only [bind_error, pure_error, and_false, exists_false, or_false] using h)
          refine ⟨by simp, fun bs r hl h1 h0 hb => ?_⟩
          obtain ⟨e, lo, hi, hs, -⟩ := arrayType_args hb
          rcases hs with ⟨hs⟩ | ⟨_, hs⟩ <;> cases hs <;> simp at hl h1
          exact ha _ h1.symm
    · rename_i h1 h2 h3 h4
      cases h
      intro bs r hl hb
      obtain ⟨e, lo, hi, hs, -⟩ := arrayType_args hb
      rcases hs with ⟨hs⟩ | ⟨_, hs⟩ <;> cases hs
      · exact h1 (List.length_eq_zero_iff.1 hl.symm)
      · obtain ⟨a, rfl⟩ := List.length_eq_one_iff.1 hl.symm; exact h2 _ rfl
      · obtain ⟨a, b, rfl⟩ := List.length_eq_two.1 hl.symm; exact h3 _ _ rfl
      · obtain ⟨a, rfl⟩ := List.length_eq_one_iff.1 hl.symm; exact h2 _ rfl
      · obtain ⟨a, b, rfl⟩ := List.length_eq_two.1 hl.symm; exact h3 _ _ rfl
      · obtain ⟨a, b, c, rfl⟩ := List.length_eq_three.1 hl.symm; exact h4 _ _ _ rfl
  · unfold mapType at h
    split at h
    · cases h
    · rename_i a
      obtain ⟨rfl, ha⟩ := CArg.int_error (by simpa only [mapTypeOne, bind_error, pure_error, and_false, exists_false, or_false] using h)
      refine ⟨by simp, fun bs r hl h0 _ hb => ?_⟩
      obtain ⟨k, v, lo, hi, hs, -⟩ := mapType_args hb
      rcases hs with ⟨hs⟩ | ⟨_, _, hs⟩ <;> cases hs <;> simp at hl h0
      exact ha _ h0.symm
    · unfold mapTypeTwo at h
      split at h
      · obtain ⟨rfl, ha⟩ := CArg.type_error (by simpa only [bind_error, pure_error, and_false, exists_false, or_false] using h)
        refine ⟨by simp, fun bs r hl h1 h0 hb => ?_⟩
        obtain ⟨k, v, lo, hi, hs, -⟩ := mapType_args hb
        rcases hs with ⟨hs⟩ | ⟨_, _, hs⟩ <;> cases hs <;> simp at hl h0 h1
        exact ha _ h1.symm
      · obtain ⟨rfl, ha⟩ := CArg.int_error (by simpa only [bind_error, pure_error, and_false, exists_false, or_false] using h)
        refine ⟨by simp, fun bs r hl h1 h0 hb => ?_⟩
        obtain ⟨k, v, lo, hi, hs, -⟩ := mapType_args hb
        rcases hs with ⟨hs⟩ | ⟨_, _, hs⟩ <;> cases hs <;> simp at hl h0 h1
        exact ha _ h1.symm
      · rename_i h2 h3
        cases h
        refine ⟨by simp, fun bs r hl h0 _ hb => ?_⟩
        obtain ⟨k, v, lo, hi, hs, -⟩ := mapType_args hb
        rcases hs with ⟨hs⟩ | ⟨_, _, hs⟩ <;> cases hs <;> simp at hl h0
        · exact h3 _ h0.symm
        · exact h2 _ h0.symm
    · rename_i a b c
      rcases bind_error.1 h with h | ⟨t, -, h⟩
      · obtain ⟨rfl, ha⟩ := CArg.type_error h
        refine ⟨by simp, fun bs r hl h0 _ hb => ?_⟩
        obtain ⟨k, v, lo, hi, hs, -⟩ := mapType_args hb
        rcases hs with ⟨hs⟩ | ⟨_, _, hs⟩ <;> cases hs <;> simp at hl h0
        exact ha _ h0.symm
      · rcases bind_error.1 h with h | ⟨i, -, h⟩
        · obtain ⟨rfl, ha⟩ := CArg.type_error h
          refine ⟨by simp, fun bs r hl h1 h0 hb => ?_⟩
          obtain ⟨k, v, lo, hi, hs, -⟩ := mapType_args hb
          rcases hs with ⟨hs⟩ | ⟨_, _, hs⟩ <;> cases hs <;> simp at hl h1
          exact ha _ h1.symm
        · obtain ⟨rfl, ha⟩ := CArg.int_error (by simpa only [bind_error, pure_error, and_false, exists_false, or_false] using h)
          refine ⟨by simp, fun bs r hl h1 h0 hb => ?_⟩
          obtain ⟨k, v, lo, hi, hs, -⟩ := mapType_args hb
          rcases hs with ⟨hs⟩ | ⟨_, _, hs⟩ <;> cases hs <;> simp at hl h1
          exact ha _ h1.symm
    · rename_i a b c d
      rcases bind_error.1 h with h | ⟨t, -, h⟩
      · obtain ⟨rfl, ha⟩ := CArg.type_error h
        refine ⟨by simp, fun bs r hl h0 _ hb => ?_⟩
        obtain ⟨k, v, lo, hi, hs, -⟩ := mapType_args hb
        rcases hs with ⟨hs⟩ | ⟨_, _, hs⟩ <;> cases hs <;> simp at hl h0
        exact ha _ h0.symm
      · rcases bind_error.1 h with h | ⟨i, -, h⟩
        · obtain ⟨rfl, ha⟩ := CArg.type_error h
          refine ⟨by simp, fun bs r hl h1 h0 hb => ?_⟩
          obtain ⟨k, v, lo, hi, hs, -⟩ := mapType_args hb
          rcases hs with ⟨hs⟩ | ⟨_, _, hs⟩ <;> cases hs <;> simp at hl h1
          exact ha _ h1.symm
        · rcases bind_error.1 h with h | ⟨i, -, h⟩
          · obtain ⟨rfl, ha⟩ := CArg.int_error h
            refine ⟨by simp, fun bs r hl h1 h0 hb => ?_⟩
            obtain ⟨k, v, lo, hi, hs, -⟩ := mapType_args hb
            rcases hs with ⟨hs⟩ | ⟨_, _, hs⟩ <;> cases hs <;> simp at hl h1
            exact ha _ h1.symm
          · obtain ⟨rfl, ha⟩ := CArg.int_error (by simpa only [bind_error, pure_error, and_false, exists_false, or_false] using h)
            refine ⟨by simp, fun bs r hl h1 h0 hb => ?_⟩
            obtain ⟨k, v, lo, hi, hs, -⟩ := mapType_args hb
            rcases hs with ⟨hs⟩ | ⟨_, _, hs⟩ <;> cases hs <;> simp at hl h1
            exact ha _ h1.symm
    · rename_i h1 h2 h3 h4 h5
      cases h
      intro bs r hl hb
      obtain ⟨k, v, lo, hi, hs, -⟩ := mapType_args hb
      rcases hs with ⟨hs⟩ | ⟨_, _, hs⟩ <;> cases hs
      · exact h1 (List.length_eq_zero_iff.1 hl.symm)
      · obtain ⟨a, rfl⟩ := List.length_eq_one_iff.1 hl.symm; exact h2 _ rfl
      · obtain ⟨a, b, rfl⟩ := List.length_eq_two.1 hl.symm; exact h3 _ _ rfl
      · obtain ⟨a, b, rfl⟩ := List.length_eq_two.1 hl.symm; exact h3 _ _ rfl
      · obtain ⟨a, b, c, rfl⟩ := List.length_eq_three.1 hl.symm; exact h4 _ _ _ rfl
      · obtain ⟨a, b, c, d, rfl⟩ : ∃ a b c d, as = [a, b, c, d] := by
          match as, hl with
          | [a, b, c, d], _ => exact ⟨a, b, c, d, rfl⟩
        exact h5 _ _ _ _ rfl

example : mapType (.user 0) [.ty .strT, .val (Ex.i 2), .val (Ex.s 97)] = .error (.arg 1) ∧ arrayType (.user 0) (List.replicate 4 (.ty .intT)) = .error .count :=
  ⟨rfl, rfl⟩

/-- **C104, enumerations.**  `tf.Enum` makes the type of the strings that are given, and `tf.IntEnum` that of the integers. -/
theorem C104_enum (o : Oid) (ss : List Str) (is : List (BitVec 64)) (v : Val) :
    (instanceOf E (enumType o ss) v = true ↔ ∃ s ∈ ss, v = .str s) ∧ (instanceOf E (intEnumType o is) v = true ↔ ∃ i ∈ is, v = .int i) := by
  have h1 : ∀ s : Str, has E (.exact (.str s)) v = true ↔ v = .str s := fun s => by
    cases v <;> simp [has, hasP, eq]
    exact eq_comm
  have h2 : ∀ i : BitVec 64, has E (.exact (.int i)) v = true ↔ v = .int i := fun s => by
    cases v <;> simp [has, hasP, eq]
    exact eq_comm
  have ac : ∀ (ts : List Ty), (∀ t ∈ ts, ∃ x, t = .exact x) → (Ty.anyOf o ts).Acyc := fun ts ht =>
    ⟨by rw [occs_iff]; rintro ⟨t, h, h'⟩; obtain ⟨x, rfl⟩ := ht t h; simp [Ty.occ] at h', by
      rw [Acycs_iff]; intro t h; obtain ⟨x, rfl⟩ := ht t h; simp [Ty.Acyc]⟩
  constructor
  · unfold enumType
    split
    · rw [instanceOf_has (by simp [Ty.Acyc])]; simp [has_not, has, hasP]
    · rw [instanceOf_has (by simp [Ty.Acyc]), h1]; simp
    · rw [instanceOf_has (ac _ (by simp)), has_anyOf]; simp [h1]
  · unfold intEnumType
    split
    · rw [instanceOf_has (by simp [Ty.Acyc])]; simp [has_not, has, hasP]
    · rw [instanceOf_has (by simp [Ty.Acyc]), h2]; simp
    · rw [instanceOf_has (ac _ (by simp)), has_anyOf]; simp [h2]

example : instanceOf Ex.E0 (intEnumType (.user 0) [3, 7]) (Ex.i 7) = true ∧ instanceOf Ex.E0 (intEnumType (.user 0) [3, 7]) (Ex.i 5) = false ∧
    instanceOf Ex.E0 (enumType (.user 0) [[97], [98]]) (Ex.s 98) = true ∧ instanceOf Ex.E0 (enumType (.user 0) []) (Ex.s 98) = false := by decide +kernel

/-- **C104, enumerations that ignore case.**  `tf.CiEnum` and `tf.CiString` make the type of the strings that equal a given one but for case, if the lower case of
the given ones differs from them in case only.  Missing: the others, see `C104_ci_violated`. -/
theorem C104_ci_partial (lower : Str → Str) (o : Oid) (ss : List Str) (h : ∀ s ∈ ss, ∀ x, E.fold (lower s) x = E.fold s x) (v : Val) :
    (instanceOf E (ciEnumType lower o ss) v = true ↔ ∃ s ∈ ss, ∃ x, v = .str x ∧ E.fold s x = true) ∧
      ∀ s ∈ ss, instanceOf E (ciStringType lower s) v = true ↔ ∃ x, v = .str x ∧ E.fold s x = true := by
  have h1 : ∀ s ∈ ss, has E (.ciStr (lower s)) v = true ↔ ∃ x, v = .str x ∧ E.fold s x = true := fun s hs => by
    cases v <;> simp [has, hasP, h s hs]
  have ac : ∀ (ts : List Ty), (∀ t ∈ ts, ∃ x, t = .ciStr x) → (Ty.anyOf o ts).Acyc := fun ts ht =>
    ⟨by rw [occs_iff]; rintro ⟨t, h, h'⟩; obtain ⟨x, rfl⟩ := ht t h; simp [Ty.occ] at h', by
      rw [Acycs_iff]; intro t h; obtain ⟨x, rfl⟩ := ht t h; simp [Ty.Acyc]⟩
  refine ⟨?_, fun s hs => by rw [ciStringType, instanceOf_has (by simp [Ty.Acyc])]; exact h1 s hs⟩
  unfold ciEnumType
  split
  · rw [instanceOf_has (by simp [Ty.Acyc])]; simp [has_not, has, hasP]
  · rw [ciStringType, instanceOf_has (by simp [Ty.Acyc]), h1 _ (by simp)]; simp
  · rw [instanceOf_has (ac _ (by simp [ciStringType])), has_anyOf]
    simp only [List.mem_map, ciStringType, exists_exists_and_eq_and]
    exact exists_congr fun s => and_congr_right fun hs => h1 s hs

namespace Ex
/-- `strings.ToLower` and `strings.EqualFold` of the texts that are one of the letters I, i and İ (U+0130) -/
def lower (s : Str) : Str := if s = [0x49] ∨ s = [0xc4, 0xb0] then [0x69] else s
def fold (a b : Str) : Bool := a == b || (a == [0x49] || a == [0x69]) && (b == [0x49] || b == [0x69])
def Ei : Env := { Ex.E0 with fold := fold }
end Ex

example : ∀ s ∈ [[0x49], [0x69]], ∀ x, Ex.Ei.fold (Ex.lower s) x = Ex.Ei.fold s x := by
  intro s hs x
  simp only [List.mem_cons, List.not_mem_nil, or_false] at hs
  rcases hs with rfl | rfl
  · simp only [Ex.lower, Ex.Ei, Ex.fold, true_or, if_true]
    by_cases h1 : x = [0x49]
    · subst h1; rfl
    · by_cases h2 : x = [0x69]
      · subst h2; rfl
      · rw [beq_false_of_ne (Ne.symm h1), beq_false_of_ne (Ne.symm h2)]; rfl
  · rfl

/-- **C104, violated.**  The type that `tf.CiString` makes of İ (U+0130) accepts i, the lower case of it, and not İ itself: the two are different but for case. -/
theorem C104_ci_violated : ∃ s, instanceOf Ex.Ei (ciStringType Ex.lower s) (.str s) = false ∧ Ex.Ei.fold s s = true ∧
    ∃ x, instanceOf Ex.Ei (ciStringType Ex.lower s) (.str x) = true ∧ Ex.Ei.fold s x = false :=
  ⟨[0xc4, 0xb0], by decide +kernel, by decide +kernel, [0x69], by decide +kernel, by decide +kernel⟩

end Verif.Types
