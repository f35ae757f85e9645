import Verif.Text.Means
import Verif.Types.EqSound
import Verif.Types.Congr
/-!
# The expressions of the documentation (C124)

Every row of the tables of docs/types.md, for all values.
-/
set_option autoImplicit false
set_option linter.unusedSimpArgs false
namespace Verif.Text
open Verif.Value (Str Val F64)
open Verif.Types

/-- The bytes of a text -/
def src (s : String) : Str := s.toUTF8.data.toList

/-- `tf.ParseType(text)` is a type whose instances, among the values that can exist, are exactly the values with the property `M`;
`M` may refer to what regular expressions match and which letters are alike.  The parser of the model gives all types the same
identity, so that the claim is for the types `t` that differ from its result in the identities of their parts only and are no parts of
themselves (there are such types). -/
def Means (P : PEnv) (text : String) (M : Types.Env → Val → Prop) : Prop :=
  ∃ u, parseType P (src text) = .ok u ∧ (∃ t, strip t = u ∧ t.Acyc) ∧
    ∀ (E : Types.Env) (t : Ty), strip t = u → t.Acyc → ∀ v, Value.WF v → Fits v → (instanceOf E t v = true ↔ M E v)

/-- All regular expressions of the tables compile; `-1.2` and `3.8` are read as the floats next to these numbers. -/
def docs (ofInt : BitVec 64 → F64) (lower : Str → Str) : PEnv :=
  ⟨fun s => if s = src "-1.2" then 0xbff3333333333333 else if s = src "3.8" then 0x400e666666666666 else 0, ofInt, lower, fun _ => true, fun _ => none⟩

variable (ofInt : BitVec 64 → F64) (lower : Str → Str)

/-- a string with the property -/
def AStr (p : Str → Prop) (v : Val) : Prop := ∃ s, v = .str s ∧ p s
/-- an integer with the property -/
def AnInt (p : Int → Prop) (v : Val) : Prop := ∃ i, v = .int i ∧ p i.toInt
/-- a float with the property -/
def AFloat (p : F64 → Prop) (v : Val) : Prop := ∃ f, v = .float f ∧ p f
/-- an array with a number of elements as said, all with the property -/
def AnArr (n : Nat → Prop) (p : Val → Prop) (v : Val) : Prop := ∃ vs, v = .arr vs ∧ n vs.length ∧ ∀ x ∈ vs, p x
/-- a map with a number of entries as said, keys with the one property and values with the other -/
def AMap (n : Nat → Prop) (p q : Val → Prop) (v : Val) : Prop := ∃ es, v = .map es ∧ n es.length ∧ ∀ e ∈ es, p e.1 ∧ q e.2

theorem means_of {P : PEnv} {text : String} {M : Types.Env → Val → Prop} (t : Ty) (h : parseType P (src text) = .ok (strip t))
    (ha : t.Acyc) (hn : NoAv (strip t)) (hM : ∀ E v, Value.WF v → Fits v → (has E t v = true ↔ M E v)) : Means P text M :=
  ⟨strip t, h, ⟨t, rfl, ha⟩, fun E t' hs ha' v hv hf => by
    rw [inst_strip E hs ha' hn v, ← inst_strip E rfl ha hn v, instanceOf_has ha]; exact hM E v hv hf⟩

macro "means " u:term : tactic =>
  `(tactic| refine means_of $u (by with_unfolding_all rfl)
      (by simp [Ty.Acyc, Acycs, Ty.occ, occs, O]) (by simp only [strip, strips, NoAv, NoAvs, NoAvFields, and_self]) ?_)

/-! ## Lemmas -/

theorem arr_iff {E : Types.Env} {o : Oid} {e : Ty} {lo hi : Int} {n : Nat → Prop} {p : Val → Prop} {v : Val} (hf : Fits v)
    (hn : ∀ k : Nat, (k : Int) ≤ maxInt → ((lo ≤ k ∧ (k : Int) ≤ hi) ↔ n k)) (hp : ∀ x, Fits x → (has E e x = true ↔ p x)) :
    has E (.sizedArr o e lo hi) v = true ↔ AnArr n p v := by
  rw [has_sizedArr]
  constructor
  · rintro ⟨vs, rfl, h1, h2, h3⟩
    have hf' := FitsAll_iff.1 hf.2
    exact ⟨vs, rfl, (hn _ hf.1).1 ⟨h1, h2⟩, fun x hx => (hp x (hf' x hx)).1 (h3 x hx)⟩
  · rintro ⟨vs, rfl, h1, h3⟩
    have hf' := FitsAll_iff.1 hf.2
    have := (hn _ hf.1).2 h1
    exact ⟨vs, rfl, this.1, this.2, fun x hx => (hp x (hf' x hx)).2 (h3 x hx)⟩

theorem map_iff {E : Types.Env} {o : Oid} {e f : Ty} {lo hi : Int} {n : Nat → Prop} {p q : Val → Prop} {v : Val} (hf : Fits v)
    (hn : ∀ k : Nat, (k : Int) ≤ maxInt → ((lo ≤ k ∧ (k : Int) ≤ hi) ↔ n k)) (hp : ∀ x, Fits x → (has E e x = true ↔ p x))
    (hq : ∀ x, Fits x → (has E f x = true ↔ q x)) : has E (.sizedMap o e f lo hi) v = true ↔ AMap n p q v := by
  cases v with
  | map es =>
    have hf' := FitsEntries_iff.1 hf.2
    have hn' := hn _ hf.1
    simp only [AMap, Val.map.injEq, exists_eq_left', ← hn']
    simp only [has, hasP, Bool.and_eq_true, List.all_eq_true, len]
    refine and_congr (and_congr decide_eq_true_iff decide_eq_true_iff) ?_
    exact forall₂_congr fun x hx => and_congr (hp _ (hf' x hx).1) (hq _ (hf' x hx).2)
  | _ => simp [has, hasP, AMap]

theorem str_iff {E : Types.Env} {v : Val} : has E .strT v = true ↔ AStr (fun _ => True) v := by cases v <;> simp [has, hasP, AStr]
theorem int_iff {E : Types.Env} {v : Val} : has E .intT v = true ↔ AnInt (fun _ => True) v := by cases v <;> simp [has, hasP, AnInt]
theorem float_iff {E : Types.Env} {v : Val} : has E .floatT v = true ↔ AFloat (fun _ => True) v := by cases v <;> simp [has, hasP, AFloat]
theorem nil_iff {E : Types.Env} {v : Val} : has E .nilT v = true ↔ v = .nil := by cases v <;> simp [has, hasP]
theorem range_iff {E : Types.Env} {lo hi : BitVec 64} {v : Val} :
    has E (.intRange lo hi true) v = true ↔ AnInt (fun i => lo.toInt ≤ i ∧ i ≤ hi.toInt) v := by
  cases v <;> simp [has, hasP, AnInt, BitVec.sle_iff_toInt_le]
theorem open_iff {E : Types.Env} {lo hi : BitVec 64} {v : Val} :
    has E (.intRange lo hi false) v = true ↔ AnInt (fun i => lo.toInt ≤ i ∧ i < hi.toInt) v := by
  cases v <;> simp [has, hasP, AnInt, BitVec.sle_iff_toInt_le, BitVec.slt_iff_toInt_lt]
theorem sized_iff {E : Types.Env} {lo hi : Int} {n : Nat → Prop} {v : Val} (hf : Fits v)
    (hn : ∀ k : Nat, (k : Int) ≤ maxInt → ((lo ≤ k ∧ (k : Int) ≤ hi) ↔ n k)) :
    has E (.sizedStr lo hi) v = true ↔ AStr (fun s => n s.length) v := by
  cases v with
  | str s =>
    have := hn s.length hf
    simp only [has, hasP, AStr, Bool.and_eq_true, Val.str.injEq, exists_eq_left', ← this, len]
    exact and_congr decide_eq_true_iff decide_eq_true_iff
  | _ => simp [has, hasP, AStr]
theorem pattern_iff {E : Types.Env} {rx : Str} {v : Val} : has E (.pattern rx) v = true ↔ AStr (fun s => E.rx rx s = true) v := by
  cases v <;> simp [has, hasP, AStr]
theorem exactStr_iff {E : Types.Env} {s : Str} {v : Val} : has E (.exact (.str s)) v = true ↔ v = .str s := by
  cases v <;> simp [has, hasP, Value.eq]
  exact eq_comm
theorem exactInt_iff {E : Types.Env} {i : BitVec 64} {v : Val} : has E (.exact (.int i)) v = true ↔ v = .int i := by
  cases v <;> simp [has, hasP, Value.eq]
  exact eq_comm
theorem or_iff {E : Types.Env} {o : Oid} {t u : Ty} {v : Val} :
    has E (.anyOf o [t, u]) v = true ↔ has E t v = true ∨ has E u v = true := by
  simp [has, hasP, hasAny]

/-- A struct type whose keys are different strings -/
theorem named_iff {E : Types.Env} {o : Oid} {fs : List (Str × Bool × Ty)} (hd : (fs.map (·.1)).Nodup) {es : List (Val × Val)}
    (hv : Value.WF (.map es)) :
    has E (.struct o false (fs.map fun f => (.str f.1, f.2))) (.map es) = true ↔
      (∀ e ∈ es, ∃ f ∈ fs, e.1 = .str f.1 ∧ has E f.2.2 e.2 = true) ∧ ∀ f ∈ fs, f.2.1 = true → ∃ w, (.str f.1, w) ∈ es := by
  have hew : ∀ e ∈ es, Value.WF e.1 := fun e he => (WF_map hv e he).1
  have hg : ∀ (s : Str) (w : Val), mapGet es (.str s) = some w ↔ (.str s, w) ∈ es := by
    intro s w
    rw [mapGet_some_iff hew hv.2 (by simp [Value.WF])]
    constructor
    · rintro ⟨⟨k, w'⟩, he, h1, rfl⟩
      cases k <;> simp [Value.eq] at h1
      subst h1; exact he
    · intro h; exact ⟨_, h, by simp [Value.eq], rfl⟩
  rw [has_struct (by intro f hf; obtain ⟨g, _, rfl⟩ := List.mem_map.1 hf; simp [Value.WF]) hew ?_ hv.2]
  · simp only [List.forall_mem_map, Bool.false_eq_true, false_or, Option.isSome_iff_exists, hg, hasEntry, List.any_map, List.any_eq_true]
    constructor
    · rintro ⟨h1, h2⟩
      refine ⟨fun e he => ?_, fun f hf hr => (h1 f hf).1 hr⟩
      obtain ⟨f, hf, h3⟩ := h2 e he
      obtain ⟨k, w⟩ := e
      simp only [Function.comp] at h3
      have h4 : k = .str f.1 := by cases k <;> simp_all [Value.eq]
      subst h4
      exact ⟨f, hf, rfl, (h1 f hf).2 w he⟩
    · rintro ⟨h1, h2⟩
      refine ⟨fun f hf => ⟨h2 f hf, fun w hw => ?_⟩, fun e he => ?_⟩
      · obtain ⟨g, hg', h3, h4⟩ := h1 _ hw
        simp only [Val.str.injEq] at h3
        have : f = g := List.inj_on_of_nodup_map hd hf hg' h3
        rw [this]; exact h4
      · obtain ⟨g, hg', h3, h4⟩ := h1 _ he
        exact ⟨g, hg', by simp [h3, Value.eq]⟩
  · rw [DistinctKeys, List.pairwise_map]
    rw [List.nodup_iff_pairwise_ne, List.pairwise_map] at hd
    exact hd.imp fun h => by simpa [Value.eq] using h

/-! ## The tables -/

/-- **C124**: the table "Primitive types" -/
theorem C124_primitive :
    Means (docs ofInt lower) "nil" (fun _ v => v = .nil) ∧
    Means (docs ofInt lower) "bool" (fun _ v => v = .bool true ∨ v = .bool false) ∧
    Means (docs ofInt lower) "true" (fun _ v => v = .bool true) ∧
    Means (docs ofInt lower) "false" (fun _ v => v = .bool false) ∧
    Means (docs ofInt lower) "string" (fun _ => AStr fun _ => True) ∧
    Means (docs ofInt lower) "int" (fun _ => AnInt fun _ => True) ∧
    Means (docs ofInt lower) "float" (fun _ => AFloat fun _ => True) := by
  refine ⟨?_, ?_, ?_, ?_, ?_, ?_, ?_⟩
  · means .nilT
    intro E v hv hf
    cases v <;> simp [has, hasP]
  · means .boolT
    intro E v hv hf
    cases v <;> simp [has, hasP]
  · means .exact (.bool true)
    intro E v hv hf
    cases v <;> simp [has, hasP, Value.eq]
  · means .exact (.bool false)
    intro E v hv hf
    cases v <;> simp [has, hasP, Value.eq]
  · means .strT
    intro E v hv hf
    cases v <;> simp [has, hasP, AStr]
  · means .intT
    intro E v hv hf
    cases v <;> simp [has, hasP, AnInt]
  · means .floatT
    intro E v hv hf
    cases v <;> simp [has, hasP, AFloat]

/-- **C124**: the table "Constrained strings".  Lengths are in bytes: for characters see `C30_characters_violated`. -/
theorem C124_strings :
    Means (docs ofInt lower) "string[10,12]" (fun _ => AStr fun s => 10 ≤ s.length ∧ s.length ≤ 12) ∧
    Means (docs ofInt lower) "/.*abc.*/" (fun E => AStr fun s => E.rx (src ".*abc.*") s = true) ∧
    Means (docs ofInt lower) "\"abc\"" (fun _ v => v = .str (src "abc")) ∧
    Means (docs ofInt lower) "~\"abc\"" (fun E => AStr fun s => E.fold (lower (src "abc")) s = true) := by
  refine ⟨?_, ?_, ?_, ?_⟩
  · means .sizedStr 10 12
    intro E v hv hf
    exact sized_iff (n := fun k => 10 ≤ k ∧ k ≤ 12) hf fun k _ => by omega
  · means .pattern (src ".*abc.*")
    intro E v hv hf
    exact pattern_iff
  · means .exact (.str (src "abc"))
    intro E v hv hf
    exact exactStr_iff
  · means .ciStr (lower (src "abc"))
    intro E v hv hf
    cases v <;> simp [has, hasP, AStr]

/-- **C124**: the table "Constrained numbers".

Partial: `0..` is said to be "a positive integer", but 0 is an instance too: `C124_positive_violated`. -/
theorem C124_numbers_partial :
    Means (docs ofInt lower) "3..28" (fun _ => AnInt fun i => 3 ≤ i ∧ i ≤ 28) ∧
    Means (docs ofInt lower) "3...28" (fun _ => AnInt fun i => 3 ≤ i ∧ i < 28) ∧
    Means (docs ofInt lower) "0.." (fun _ => AnInt fun i => 0 ≤ i) ∧
    Means (docs ofInt lower) "-1.2..3.8" (fun _ => AFloat fun f => F64.le 0xbff3333333333333 f = true ∧ F64.le f 0x400e666666666666 = true) ∧
    Means (docs ofInt lower) "-1.2...3.8" (fun _ => AFloat fun f => F64.le 0xbff3333333333333 f = true ∧ Value.F64.lt f 0x400e666666666666 = true) := by
  refine ⟨?_, ?_, ?_, ?_, ?_⟩
  · means .intRange 3 28 true
    intro E v hv hf
    exact range_iff
  · means .intRange 3 28 false
    intro E v hv hf
    exact open_iff
  · means .intRange 0 0x7fffffffffffffff true
    intro E v hv hf
    rw [range_iff]
    refine exists_congr fun i => and_congr_right fun _ => ⟨fun h => h.1, fun h => ⟨h, ?_⟩⟩
    have := i.toInt_lt
    show i.toInt ≤ 9223372036854775807
    omega
  · means .floatRange 0xbff3333333333333 0x400e666666666666 true
    intro E v hv hf
    cases v <;> simp [has, hasP, AFloat]
  · means .floatRange 0xbff3333333333333 0x400e666666666666 false
    intro E v hv hf
    cases v <;> simp [has, hasP, AFloat]

/-- **C124**: the table "Arrays" -/
theorem C124_arrays :
    Means (docs ofInt lower) "[]int" (fun _ => AnArr (fun _ => True) (AnInt fun _ => True)) ∧
    Means (docs ofInt lower) "[]0..15" (fun _ => AnArr (fun _ => True) (AnInt fun i => 0 ≤ i ∧ i ≤ 15)) ∧
    Means (docs ofInt lower) "[1,10]any" (fun _ => AnArr (fun n => 1 ≤ n ∧ n ≤ 10) fun _ => True) ∧
    Means (docs ofInt lower) "[1,10]string[1]" (fun _ => AnArr (fun n => 1 ≤ n ∧ n ≤ 10) (AStr fun s => s ≠ [])) ∧
    Means (docs ofInt lower) "{0..3,string,float}" (fun _ v => ∃ i s f, v = .arr [.int i, .str s, .float f] ∧ 0 ≤ i.toInt ∧ i.toInt ≤ 3) := by
  refine ⟨?_, ?_, ?_, ?_, ?_⟩
  · means .sizedArr O .intT 0 maxInt
    intro E v hv hf
    exact arr_iff hf (fun k hk => by simp [hk]) fun x _ => int_iff
  · means .sizedArr O (.intRange 0 15 true) 0 maxInt
    intro E v hv hf
    exact arr_iff hf (fun k hk => by simp [hk]) fun x _ => range_iff
  · means .sizedArr O .any 1 10
    intro E v hv hf
    exact arr_iff hf (fun k hk => by omega) fun x _ => by simp [has, hasP]
  · means .sizedArr O (.sizedStr 1 maxInt) 1 10
    intro E v hv hf
    refine arr_iff hf (fun k hk => by omega) fun x hx => ?_
    rw [sized_iff (n := fun k => k ≠ 0) hx (fun k hk => by omega)]
    simp [AStr]
  · means .tuple O [.intRange 0 3 true, .strT, .floatT] false
    intro E v hv hf
    constructor
    · intro h
      cases v <;> simp only [has, hasP, Bool.false_eq_true] at h
      rename_i vs
      rcases vs with _ | ⟨a, _ | ⟨b, _ | ⟨c, _ | ⟨d, vs⟩⟩⟩⟩ <;> simp only [hasZip, Bool.and_eq_true, Bool.false_eq_true, and_false, and_true] at h
      obtain ⟨h1, h2, h3⟩ := h
      obtain ⟨i, rfl, h4⟩ := range_iff.1 h1
      obtain ⟨s, rfl, -⟩ := str_iff.1 h2
      obtain ⟨f, rfl, -⟩ := float_iff.1 h3
      exact ⟨i, s, f, rfl, h4⟩
    · rintro ⟨i, s, f, rfl, h⟩
      have h1 : has E (.intRange 0 3 true) (.int i) = true := range_iff.2 ⟨i, rfl, h⟩
      simp only [has, hasP, hasZip, Bool.and_true] at h1 ⊢
      exact h1

/-- **C124**: the first table of "Maps" -/
theorem C124_maps :
    Means (docs ofInt lower) "map[string]int" (fun _ => AMap (fun _ => True) (AStr fun _ => True) (AnInt fun _ => True)) ∧
    Means (docs ofInt lower) "map[string](string|int)"
      (fun _ => AMap (fun _ => True) (AStr fun _ => True) fun v => AStr (fun _ => True) v ∨ AnInt (fun _ => True) v) ∧
    Means (docs ofInt lower) "map[string](string|nil)"
      (fun _ => AMap (fun _ => True) (AStr fun _ => True) fun v => AStr (fun _ => True) v ∨ v = .nil) ∧
    Means (docs ofInt lower) "map[string|int]any"
      (fun _ => AMap (fun _ => True) (fun k => AStr (fun _ => True) k ∨ AnInt (fun _ => True) k) fun _ => True) ∧
    Means (docs ofInt lower) "map[/\\A[A-Z]+\\z/,1,10]string[1]"
      (fun E => AMap (fun n => 1 ≤ n ∧ n ≤ 10) (AStr fun s => E.rx (src "\\A[A-Z]+\\z") s = true) (AStr fun s => s ≠ [])) := by
  refine ⟨?_, ?_, ?_, ?_, ?_⟩
  · means .sizedMap O .strT .intT 0 maxInt
    intro E v hv hf
    exact map_iff hf (fun k hk => by simp [hk]) (fun x _ => str_iff) fun x _ => int_iff
  · means .sizedMap O .strT (.anyOf (.user 1) [.strT, .intT]) 0 maxInt
    intro E v hv hf
    exact map_iff hf (fun k hk => by simp [hk]) (fun x _ => str_iff) fun x _ => or_iff.trans (or_congr str_iff int_iff)
  · means .sizedMap O .strT (.anyOf (.user 1) [.strT, .nilT]) 0 maxInt
    intro E v hv hf
    exact map_iff hf (fun k hk => by simp [hk]) (fun x _ => str_iff) fun x _ => or_iff.trans (or_congr str_iff nil_iff)
  · means .sizedMap O (.anyOf (.user 1) [.strT, .intT]) .any 0 maxInt
    intro E v hv hf
    exact map_iff hf (fun k hk => by simp [hk]) (fun x _ => or_iff.trans (or_congr str_iff int_iff)) fun x _ => by simp [has, hasP]
  · means .sizedMap O (.pattern (src "\\A[A-Z]+\\z")) (.sizedStr 1 maxInt) 1 10
    intro E v hv hf
    refine map_iff hf (fun k hk => by omega) (fun x _ => pattern_iff) fun x hx => ?_
    rw [sized_iff (n := fun k => k ≠ 0) hx (fun k hk => by omega)]
    simp [AStr]

/-- An address: no keys but `name`, `co`, `address`, `zip` and `city`, all of them there but perhaps `co`, strings, and the `zip` as the
regular expression says -/
def Address (E : Types.Env) (v : Val) : Prop := ∃ es, v = .map es ∧
  (∀ e ∈ es, (e.1 ∈ [Val.str (src "name"), .str (src "co"), .str (src "address"), .str (src "city")] ∧ AStr (fun _ => True) e.2) ∨
    (e.1 = .str (src "zip") ∧ AStr (fun s => E.rx (src "\\d{5,5}") s = true) e.2)) ∧
  ∀ k ∈ [src "name", src "address", src "zip", src "city"], ∃ w, (.str k, w) ∈ es

def addressFields : List (Str × Bool × Ty) := [(src "name", true, .strT), (src "co", false, .strT), (src "address", true, .strT),
  (src "zip", true, .pattern (src "\\d{5,5}")), (src "city", true, .strT)]

theorem address_iff {E : Types.Env} {v : Val} (hv : Value.WF v) :
    has E (.struct O false (addressFields.map fun f => (.str f.1, f.2))) v = true ↔ Address E v := by
  cases v with
  | map es =>
    rw [named_iff (by decide +kernel) hv]
    simp only [Address, Val.map.injEq, exists_eq_left', addressFields, List.mem_cons, List.not_mem_nil, or_false, exists_eq_or_imp,
      forall_eq_or_imp, exists_eq_left, forall_eq, str_iff, pattern_iff, forall_true_left, Bool.false_eq_true, false_imp_iff, true_and]
    refine and_congr_left fun _ => forall₂_congr fun e _ => ?_
    grind
  | _ => simp [has, hasP, Address]

/-- **C124**: the second table of "Maps": both ways to write the keys -/
theorem C124_struct :
    Means (docs ofInt lower) "{name:string,co?:string,address:string,zip:/\\d{5,5}/,city:string}" Address ∧
    Means (docs ofInt lower) "{\"name\":string,\"co\"?:string,\"address\":string,\"zip\":/\\d{5,5}/,\"city\":string}" Address := by
  refine ⟨?_, ?_⟩
  · refine means_of (.struct O false (addressFields.map fun f => (.str f.1, f.2))) (by with_unfolding_all rfl)
      (by simp [Ty.Acyc, AcycFields, Ty.occ, occFields, addressFields])
      (by simp only [strip, stripFields, NoAv, NoAvFields, addressFields, List.map_cons, List.map_nil, and_self]) ?_
    intro E v hv hf
    exact address_iff hv
  · refine means_of (.struct O false (addressFields.map fun f => (.str f.1, f.2))) (by with_unfolding_all rfl)
      (by simp [Ty.Acyc, AcycFields, Ty.occ, occFields, addressFields])
      (by simp only [strip, stripFields, NoAv, NoAvFields, addressFields, List.map_cons, List.map_nil, and_self]) ?_
    intro E v hv hf
    exact address_iff hv

/-- **C124**: the tables "allOf" and "anyOf".

Partial: `/^Ap/&string[20]` is said to be "any string that is 20 characters long and starts with the letter 'p'", but it accepts longer
strings, and they start with `Ap`: `C124_long_violated`. -/
theorem C124_combinations_partial :
    Means (docs ofInt lower) "/^Ap/&string[20]" (fun E => AStr fun s => E.rx (src "^Ap") s = true ∧ 20 ≤ s.length) ∧
    Means (docs ofInt lower) "\"a\"|\"b\"|\"c\"" (fun _ v => v = .str (src "a") ∨ v = .str (src "b") ∨ v = .str (src "c")) ∧
    Means (docs ofInt lower) "int|float" (fun _ v => AnInt (fun _ => True) v ∨ AFloat (fun _ => True) v) ∧
    Means (docs ofInt lower) "1|8|10|16" (fun _ => AnInt fun i => i = 1 ∨ i = 8 ∨ i = 10 ∨ i = 16) := by
  refine ⟨?_, ?_, ?_, ?_⟩
  · means .allOf O [.pattern (src "^Ap"), .sizedStr 20 maxInt]
    intro E v hv hf
    cases v with
    | str s =>
      have : len s ≤ maxInt := hf
      simp [has, hasP, hasAll, AStr, this]
      intro _
      simp only [len]; omega
    | _ => simp [has, hasP, hasAll, AStr]
  · means .anyOf O [.exact (.str (src "a")), .exact (.str (src "b")), .exact (.str (src "c"))]
    intro E v hv hf
    simp only [has_anyOf_eq, List.any_cons, List.any_nil, Bool.or_eq_true, exactStr_iff, Bool.false_eq_true, or_false]
  · means .anyOf O [.intT, .floatT]
    intro E v hv hf
    exact or_iff.trans (or_congr int_iff float_iff)
  · means .anyOf O [.exact (.int 1), .exact (.int 8), .exact (.int 10), .exact (.int 16)]
    intro E v hv hf
    simp only [has_anyOf_eq, List.any_cons, List.any_nil, Bool.or_eq_true, exactInt_iff, Bool.false_eq_true, or_false]
    have key : ∀ (i j : BitVec 64), i = j ↔ i.toInt = j.toInt := fun i j => BitVec.toInt_inj.symm
    cases v with
    | int i =>
      simp only [AnInt, Val.int.injEq, exists_eq_left']
      simp only [key]; exact Iff.rfl
    | _ => simp [AnInt]

/-- **C124**: "A negation matches all values that doesn't match the given type", for the type `int`; `C29_not` has it for all types. -/
theorem C124_negation : Means (docs ofInt lower) "!int" (fun _ v => ¬ AnInt (fun _ => True) v) := by
  means .not .intT
  intro E v hv hf
  cases v <;> simp [has, hasP, AnInt]

/-- **C124 is violated**: `0..` is not "a positive integer", for 0 is one of its instances. -/
theorem C124_positive_violated : ¬ Means (docs ofInt lower) "0.." (fun _ => AnInt fun i => 0 < i) := by
  rintro ⟨u, h, ⟨t, rfl, ha⟩, hm⟩
  obtain ⟨w, h', -, hm'⟩ := (C124_numbers_partial ofInt lower).2.2.1
  rw [h] at h'
  injection h' with h'
  subst h'
  have h1 := (hm' Ex.E0 t rfl ha (.int 0) (by simp [Value.WF]) (by simp [Fits])).2 ⟨0, rfl, by decide⟩
  obtain ⟨i, h2, h3⟩ := (hm Ex.E0 t rfl ha (.int 0) (by simp [Value.WF]) (by simp [Fits])).1 h1
  cases h2
  exact absurd h3 (by decide)

/-- **C124 is violated**: `/^Ap/&string[20]` is not "any string that is 20 characters long": it accepts strings that are longer. -/
theorem C124_long_violated : ¬ Means (docs ofInt lower) "/^Ap/&string[20]" (fun E => AStr fun s => E.rx (src "^Ap") s = true ∧ s.length = 20) := by
  rintro ⟨u, h, ⟨t, rfl, ha⟩, hm⟩
  obtain ⟨w, h', -, hm'⟩ := (C124_combinations_partial ofInt lower).1
  rw [h] at h'
  injection h' with h'
  subst h'
  let E : Types.Env := { Ex.E0 with rx := fun _ s => s.take 2 == [65, 112] }
  let s : Str := src "Apple trees in bloom!"
  have hf : Fits (.str s) := by simp only [Fits]; decide +kernel
  have h1 := (hm' E t rfl ha (.str s) (by simp [Value.WF]) hf).2 ⟨s, rfl, by decide +kernel, by decide +kernel⟩
  obtain ⟨s', h2, -, h3⟩ := (hm E t rfl ha (.str s) (by simp [Value.WF]) hf).1 h1
  cases h2
  exact absurd h3 (by decide +kernel)

/-- The names of two files with a number and a text are an instance of `map[string](string|int)`, an array is none. -/
example : ∃ u, parseType (docs ofInt lower) (src "map[string](string|int)") = .ok u ∧ ∀ (E : Types.Env) (t : Ty), strip t = u → t.Acyc →
    instanceOf E t (.map [(.str (src "a"), .int 1), (.str (src "b"), .str [])]) = true ∧ instanceOf E t (.arr [.int 1]) = false := by
  obtain ⟨u, h, -, hm⟩ := (C124_maps ofInt lower).2.1
  refine ⟨u, h, fun E t hs ha => ⟨(hm E t hs ha _ ?_ ?_).2 ⟨_, rfl, trivial, ?_⟩, ?_⟩⟩
  · rw [Value.WF]
    refine ⟨by simp [Value.WFes, Value.WF], ?_⟩
    exact .cons (by simp only [List.mem_singleton, forall_eq]; decide +kernel) (.cons (by simp) .nil)
  · simp only [Fits, FitsEntries, and_true, true_and]; decide +kernel
  · simp [AStr, AnInt]
  · rw [Bool.eq_false_iff]
    intro h1
    obtain ⟨es, h2, -⟩ := (hm E t hs ha (.arr [.int 1]) (by simp [Value.WF, Value.WFs]) (by simp only [Fits, FitsAll, and_true]; decide +kernel)).1 h1
    cases h2

end Verif.Text
