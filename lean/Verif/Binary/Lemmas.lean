import Verif.Binary.Model
/-!
# Lemmas about binary values
-/
set_option autoImplicit false
namespace Verif.Binary
open Verif.Value (Str)

/-! ## Sharing -/

/-- What holds in every state that a program can reach -/
structure Inv (s : St) : Prop where
  known : ∀ a ∈ s.known, a < s.arrays.length
  /-- nobody else has the bytes of a frozen value -/
  hidden : ∀ (b : Nat) (o : Obj), s.objs[b]? = some o → o.frozen = true → o.bytes.arr ∉ s.known
  /-- every array of a value that is not frozen may be shared with other such values only -/
  apart : ∀ (b : Nat) (o : Obj) (b' : Nat) (o' : Obj), s.objs[b]? = some o → s.objs[b']? = some o' → o.frozen = true → o'.frozen = false →
    o.bytes.arr ≠ o'.bytes.arr
  valid : ∀ (b : Nat) (o : Obj), s.objs[b]? = some o → s.valid o.bytes

theorem Inv.init : Inv St.init := by
  constructor <;> simp [St.init]

theorem read_append {s : St} {x : Slice} {bs : List UInt8} (h : x.arr < s.arrays.length) :
    (s.alloc bs).1.read x = s.read x := by
  simp only [St.read, St.alloc, List.getD_eq_getElem?_getD, List.getElem?_append_left h]

theorem valid_lt {s : St} {x : Slice} (h : s.valid x) : x.arr < s.arrays.length := by
  obtain ⟨bs, h, _⟩ := h
  exact (List.getElem?_eq_some_iff.mp h).1

theorem valid_alloc {s : St} {x : Slice} {bs : List UInt8} (h : s.valid x) : (s.alloc bs).1.valid x := by
  have := valid_lt h
  obtain ⟨cs, h, h2⟩ := h
  exact ⟨cs, by simp only [St.alloc, List.getElem?_append_left this, h], h2⟩

theorem valid_alloc_new {s : St} {bs : List UInt8} : (s.alloc bs).1.valid (s.alloc bs).2 :=
  ⟨bs, by simp [St.alloc], by simp [St.alloc]⟩

theorem read_alloc_new {s : St} {bs : List UInt8} : (s.alloc bs).1.read (s.alloc bs).2 = bs := by
  simp [St.alloc, St.read]

/-- A copy of bytes as a new object -/
theorem Inv.new_copy {s : St} (h : Inv s) (bs : List UInt8) (frozen : Bool) :
    Inv ((s.alloc bs).1.new { bytes := (s.alloc bs).2, frozen := frozen }) := by
  have fresh : ∀ (b : Nat) (o : Obj), s.objs[b]? = some o → o.bytes.arr ≠ s.arrays.length := fun b o hb =>
    Nat.ne_of_lt (valid_lt (h.valid b o hb))
  have objs : ∀ (b : Nat) (o : Obj), ((s.alloc bs).1.new { bytes := (s.alloc bs).2, frozen := frozen }).objs[b]? = some o →
      s.objs[b]? = some o ∨ o = { bytes := (s.alloc bs).2, frozen := frozen } := by
    intro b o hb
    simp only [St.new, St.alloc, List.getElem?_append] at hb
    split at hb
    · exact .inl hb
    · rw [List.getElem?_singleton] at hb
      split at hb
      · right; injection hb with hb; rw [← hb]; simp [St.alloc]
      · cases hb
  refine ⟨?_, ?_, ?_, ?_⟩
  · intro a ha
    have := h.known a ha
    simp only [St.new, St.alloc, List.length_append, List.length_cons, List.length_nil]
    omega
  · intro b o hb hf
    rcases objs b o hb with hb | rfl
    · exact h.hidden b o hb hf
    · intro hk
      exact absurd (h.known _ hk) (by simp [St.alloc])
  · intro b o b' o' hb hb' hf hf'
    rcases objs b o hb with hb | rfl <;> rcases objs b' o' hb' with hb' | rfl
    · exact h.apart b o b' o' hb hb' hf hf'
    · exact fun e => fresh b o hb e
    · exact fun e => fresh b' o' hb' e.symm
    · simp only at hf hf'; rw [hf] at hf'; cases hf'
  · intro b o hb
    rcases objs b o hb with hb | rfl
    · exact valid_alloc (h.valid b o hb)
    · exact valid_alloc_new

theorem Inv.known_fresh {s : St} (h : Inv s) (bs : List UInt8) :
    Inv { (s.alloc bs).1 with known := (s.alloc bs).2.arr :: s.known } := by
  refine ⟨?_, ?_, ?_, ?_⟩
  · intro a ha
    simp only [St.alloc, List.length_append, List.length_cons, List.length_nil, List.mem_cons] at ha ⊢
    rcases ha with rfl | ha
    · omega
    · have := h.known a ha; omega
  · intro b o hb hf hk
    rcases List.mem_cons.mp hk with e | hk
    · exact absurd (valid_lt (h.valid b o hb)) (by rw [e]; simp [St.alloc])
    · exact h.hidden b o hb hf hk
  · exact h.apart
  · intro b o hb; exact valid_alloc (h.valid b o hb)

theorem Inv.step {s t : St} (h : Inv s) (st : Step s t) : Inv t := by
  cases st with
  | make bs => exact h.known_fresh bs
  | write a i v ha =>
    refine ⟨?_, h.hidden, h.apart, ?_⟩
    · intro a ha; simp only [List.length_set]; exact h.known a ha
    · intro b o hb
      obtain ⟨bs, h1, h2⟩ := h.valid b o hb
      by_cases e : a = o.bytes.arr
      · subst e
        have hlt := (List.getElem?_eq_some_iff.mp h1).1
        refine ⟨bs.set i v, ?_, by simpa using h2⟩
        simp only [List.getElem?_set_self hlt, List.getD_eq_getElem?_getD, h1, Option.getD_some]
      · exact ⟨bs, by simp only [List.getElem?_set_ne e, h1], h2⟩
  | binary x frozen hk hv =>
    unfold St.binary
    cases frozen with
    | true => exact h.new_copy _ _
    | false =>
      simp only [Bool.false_eq_true, if_false]
      have objs : ∀ (b : Nat) (o : Obj), (s.new { bytes := x, frozen := false }).objs[b]? = some o →
          s.objs[b]? = some o ∨ o = { bytes := x, frozen := false } := by
        intro b o hb
        simp only [St.new, List.getElem?_append] at hb
        split at hb
        · exact .inl hb
        · rw [List.getElem?_singleton] at hb
          split at hb
          · right; injection hb with hb; exact hb.symm
          · cases hb
      refine ⟨h.known, ?_, ?_, ?_⟩
      · intro b o hb hf
        rcases objs b o hb with hb | rfl
        · exact h.hidden b o hb hf
        · cases hf
      · intro b o b' o' hb hb' hf hf'
        rcases objs b o hb with hb | rfl
        · rcases objs b' o' hb' with hb' | rfl
          · exact h.apart b o b' o' hb hb' hf hf'
          · exact fun e => h.hidden b o hb hf (e ▸ hk)
        · cases hf
      · intro b o hb
        rcases objs b o hb with hb | rfl
        · exact h.valid b o hb
        · exact hv
  | fromBytes bs => exact h.new_copy _ _
  | copy b frozen hb =>
    unfold St.copy
    split
    · exact h
    · exact h.new_copy _ _
  | @freeze o b hb =>
    unfold St.freeze
    split
    case isFalse => exact h
    case isTrue hfz =>
      have fresh : ∀ (b : Nat) (o : Obj), s.objs[b]? = some o → o.bytes.arr ≠ s.arrays.length := fun b o hb =>
        Nat.ne_of_lt (valid_lt (h.valid b o hb))
      have hlt := (List.getElem?_eq_some_iff.mp hb).1
      have objs : ∀ (b' : Nat) (o' : Obj), (s.objs.set b { bytes := (s.alloc (s.read o.bytes)).2, frozen := true })[b']? = some o' →
          (s.objs[b']? = some o') ∨ o' = { bytes := (s.alloc (s.read o.bytes)).2, frozen := true } := by
        intro b' o' hb'
        by_cases e : b = b'
        · subst e; rw [List.getElem?_set_self hlt] at hb'; right; injection hb' with hb'; exact hb'.symm
        · rw [List.getElem?_set_ne e] at hb'; exact .inl hb'
      refine ⟨?_, ?_, ?_, ?_⟩
      · intro a ha
        have := h.known a ha
        simp only [St.alloc, List.length_append, List.length_cons, List.length_nil]; omega
      · intro b' o' hb' hf
        rcases objs b' o' hb' with hb' | rfl
        · exact h.hidden b' o' hb' hf
        · intro hk; exact absurd (h.known _ hk) (by simp [St.alloc])
      · intro b1 o1 b2 o2 hb1 hb2 hf1 hf2
        rcases objs b1 o1 hb1 with hb1 | rfl <;> rcases objs b2 o2 hb2 with hb2 | rfl
        · exact h.apart b1 o1 b2 o2 hb1 hb2 hf1 hf2
        · cases hf2
        · exact fun e => fresh b2 o2 hb2 e.symm
        · cases hf2
      · intro b' o' hb'
        rcases objs b' o' hb' with hb' | rfl
        · exact valid_alloc (h.valid b' o' hb')
        · exact valid_alloc_new
  | @goBytes o b hb =>
    unfold St.goBytes
    split
    · exact h.known_fresh _
    case isFalse hfz =>
      refine ⟨?_, ?_, h.apart, h.valid⟩
      · intro a ha
        rcases List.mem_cons.mp ha with rfl | ha
        · exact valid_lt (h.valid b o hb)
        · exact h.known a ha
      · intro b' o' hb' hf hk
        rcases List.mem_cons.mp hk with e | hk
        · exact h.apart b' o' b o hb' hb hf (by simpa using hfz) e
        · exact h.hidden b' o' hb' hf hk

/-- A step leaves frozen values alone. -/
theorem step_frozen {s t : St} (h : Inv s) (st : Step s t) {b : Nat} {o : Obj} (hb : s.objs[b]? = some o) (hf : o.frozen = true) :
    t.objs[b]? = some o ∧ t.read o.bytes = s.read o.bytes := by
  have hlt := valid_lt (h.valid b o hb)
  have hblt := (List.getElem?_eq_some_iff.mp hb).1
  cases st with
  | make bs => exact ⟨hb, read_append hlt⟩
  | write a i v ha =>
    refine ⟨hb, ?_⟩
    have hne : a ≠ o.bytes.arr := fun e => h.hidden b o hb hf (e ▸ ha)
    simp only [St.read, List.getD_eq_getElem?_getD, List.getElem?_set_ne hne]
  | binary x frozen hk hv =>
    unfold St.binary
    cases frozen with
    | true =>
      refine ⟨?_, read_append hlt⟩
      simp only [if_true, St.new, St.alloc, List.getElem?_append_left hblt, hb]
    | false =>
      refine ⟨?_, rfl⟩
      simp only [Bool.false_eq_true, if_false, St.new, List.getElem?_append_left hblt, hb]
  | fromBytes bs =>
    refine ⟨?_, read_append hlt⟩
    simp only [St.fromBytes, St.new, St.alloc, List.getElem?_append_left hblt, hb]
  | copy b' frozen hb' =>
    unfold St.copy
    split
    · exact ⟨hb, rfl⟩
    · refine ⟨?_, read_append hlt⟩
      simp only [St.new, St.alloc, List.getElem?_append_left hblt, hb]
  | @freeze o' b' hb' =>
    unfold St.freeze
    split
    · next hfz =>
      have hne : b' ≠ b := by
        rintro rfl
        rw [hb] at hb'; injection hb' with e; subst e
        rw [hf] at hfz; cases hfz
      exact ⟨by simp only [St.alloc, List.getElem?_set_ne hne, hb], read_append hlt⟩
    · exact ⟨hb, rfl⟩
  | @goBytes o' b' hb' =>
    unfold St.goBytes
    split
    · exact ⟨hb, read_append hlt⟩
    · exact ⟨hb, rfl⟩

theorem Inv.steps {s t : St} (h : Inv s) (st : Steps s t) : Inv t := by
  induction st with
  | refl => exact h
  | tail _ x ih => exact ih.step x

theorem steps_frozen {s t : St} (h : Inv s) (st : Steps s t) {b : Nat} {o : Obj} (hb : s.objs[b]? = some o)
    (hf : o.frozen = true) : t.objs[b]? = some o ∧ t.read o.bytes = s.read o.bytes := by
  induction st with
  | refl => exact ⟨hb, rfl⟩
  | tail x y ih =>
    have := step_frozen (h.steps x) y ih.1 hf
    exact ⟨this.1, this.2.trans ih.2⟩

/-! ## base64 -/

theorem sextet_char (al : Alphabet) (n : Nat) (h : n < 64) : sextet al (char al n) = some n := by
  have : ∀ al ∈ [Alphabet.std, Alphabet.url], ∀ n : Fin 64, sextet al (char al n) = some n.val := by decide +kernel
  exact this al (by cases al <;> simp) ⟨n, h⟩

theorem char_sextet (al : Alphabet) (c : UInt8) (n : Nat) (h : sextet al c = some n) : char al n = c ∧ n < 64 := by
  have : ∀ al ∈ [Alphabet.std, Alphabet.url], ∀ i : Fin 256,
      (sextet al (UInt8.ofNat i)).all fun n => char al n == UInt8.ofNat i && decide (n < 64) := by decide +kernel
  have h2 := this al (by cases al <;> simp) ⟨c.toNat, c.toNat_lt⟩
  simp only [UInt8.ofNat_toNat, h, Option.all_some, Bool.and_eq_true, beq_iff_eq, decide_eq_true_eq] at h2
  exact h2

theorem char_ne (al : Alphabet) (n : Nat) (h : n < 64) : char al n ≠ 61 ∧ char al n ≠ 10 ∧ char al n ≠ 13 := by
  have : ∀ al ∈ [Alphabet.std, Alphabet.url], ∀ n : Fin 64, char al n ≠ 61 ∧ char al n ≠ 10 ∧ char al n ≠ 13 := by
    decide +kernel
  exact this al (by cases al <;> simp) ⟨n, h⟩

theorem byte_eq {n : Nat} {b : UInt8} (h : n = b.toNat) : UInt8.ofNat n = b := by
  subst h; simp

theorem decodeQuanta_encode (al : Alphabet) (strict : Bool) (bs : List UInt8) :
    decodeQuanta al strict (encode al bs) = some bs := by
  fun_induction encode al bs with
  | case1 a b c r v ih =>
    have ha := a.toNat_lt; have hb := b.toNat_lt; have hc := c.toNat_lt
    have h4 := char_ne al (v % 64) (by omega)
    rw [decodeQuanta, if_neg (fun e => h4.1 e.2.1), if_neg (fun e => h4.1 e.1), sextet_char _ _ (by omega),
      sextet_char _ _ (by omega), sextet_char _ _ (by omega), sextet_char _ _ (by omega), ih]
    simp only [Option.some.injEq, List.cons.injEq, and_true]
    refine ⟨byte_eq ?_, byte_eq ?_, byte_eq ?_⟩ <;> omega
  | case2 a b v =>
    have ha := a.toNat_lt; have hb := b.toNat_lt
    have h3 := char_ne al (v / 64 % 64) (by omega)
    rw [decodeQuanta, if_neg (fun e => h3.1 e.1), if_pos ⟨rfl, rfl⟩, sextet_char _ _ (by omega), sextet_char _ _ (by omega),
      sextet_char _ _ (by omega)]
    dsimp only
    have hz : v / 64 % 64 % 4 = 0 := by omega
    simp only [hz, ne_eq, not_true_eq_false, decide_false, Bool.and_false, Bool.false_eq_true, if_false, Option.some.injEq,
      List.cons.injEq, and_true]
    refine ⟨byte_eq ?_, byte_eq ?_⟩ <;> omega
  | case3 a v =>
    have ha := a.toNat_lt
    rw [decodeQuanta, if_pos ⟨rfl, rfl, rfl⟩, sextet_char _ _ (by omega), sextet_char _ _ (by omega)]
    dsimp only
    have hz : v / 4096 % 64 % 16 = 0 := by omega
    simp only [hz, ne_eq, not_true_eq_false, decide_false, Bool.and_false, Bool.false_eq_true, if_false, Option.some.injEq,
      List.cons.injEq, and_true]
    exact byte_eq (by omega)
  | case4 => rw [decodeQuanta]

/-- The encoded text has no line breaks. -/
theorem encode_chars (al : Alphabet) (bs : List UInt8) : ∀ c ∈ encode al bs, c ≠ 10 ∧ c ≠ 13 := by
  fun_induction encode al bs with
  | case1 a b c r v ih =>
    have ha := a.toNat_lt; have hb := b.toNat_lt; have hc := c.toNat_lt
    intro x hx
    simp only [List.mem_cons] at hx
    rcases hx with rfl | rfl | rfl | rfl | hx
    · exact (char_ne al _ (by omega)).2
    · exact (char_ne al _ (by omega)).2
    · exact (char_ne al _ (by omega)).2
    · exact (char_ne al _ (by omega)).2
    · exact ih x hx
  | case2 a b v =>
    have ha := a.toNat_lt; have hb := b.toNat_lt
    intro x hx
    simp only [List.mem_cons, List.not_mem_nil, or_false] at hx
    rcases hx with rfl | rfl | rfl | rfl
    · exact (char_ne al _ (by omega)).2
    · exact (char_ne al _ (by omega)).2
    · exact (char_ne al _ (by omega)).2
    · decide
  | case3 a v =>
    have ha := a.toNat_lt
    intro x hx
    simp only [List.mem_cons, List.not_mem_nil, or_false] at hx
    rcases hx with rfl | rfl | rfl | rfl
    · exact (char_ne al _ (by omega)).2
    · exact (char_ne al _ (by omega)).2
    · decide
    · decide
  | case4 => intro x hx; cases hx

theorem decode_encode (al : Alphabet) (strict : Bool) (bs : List UInt8) : decode al strict (encode al bs) = some bs := by
  rw [decode, List.filter_eq_self.mpr, decodeQuanta_encode]
  intro c hc
  have := encode_chars al bs c hc
  simp [this.1, this.2]

/-- Strict decoding accepts only what encoding yields. -/
theorem encode_decodeQuanta (al : Alphabet) : ∀ (s : Str) (bs : List UInt8), decodeQuanta al true s = some bs → encode al bs = s
  | [], bs, h => by rw [decodeQuanta] at h; injection h with h; subst h; rfl
  | [_], bs, h => by simp [decodeQuanta] at h
  | [_, _], bs, h => by simp [decodeQuanta] at h
  | [_, _, _], bs, h => by simp [decodeQuanta] at h
  | a :: b :: c :: d :: r, bs, h => by
    have key : ∀ {n : Nat} {c : UInt8} {k : Nat}, sextet al c = some n → k = n → char al k = c :=
      fun h e => e ▸ (char_sextet al _ _ h).1
    rw [decodeQuanta] at h
    split at h
    · next hpad =>
      split at h
      · next x y hx hy =>
        split at h
        · cases h
        next hs =>
        injection h with h
        subst h
        have lx := (char_sextet al _ _ hx).2; have ly := (char_sextet al _ _ hy).2
        have hz : y % 16 = 0 := by simpa using hs
        obtain ⟨rfl, rfl, rfl⟩ := hpad
        simp only [encode, List.cons.injEq, and_true]
        rw [UInt8.toNat_ofNat_of_lt' (by show _ < 256; omega)]
        exact ⟨key hx (by omega), key hy (by omega)⟩
      · cases h
    · split at h
      · next hpad =>
        split at h
        · next x y z hx hy hz =>
          split at h
          · cases h
          next hs =>
          injection h with h
          subst h
          have lx := (char_sextet al _ _ hx).2; have ly := (char_sextet al _ _ hy).2; have lz := (char_sextet al _ _ hz).2
          have hs : z % 4 = 0 := by simpa using hs
          obtain ⟨rfl, rfl⟩ := hpad
          simp only [encode, List.cons.injEq, and_true]
          rw [UInt8.toNat_ofNat_of_lt' (by show _ < 256; omega), UInt8.toNat_ofNat_of_lt' (by show _ < 256; omega)]
          exact ⟨key hx (by omega), key hy (by omega), key hz (by omega)⟩
        · cases h
      · split at h
        · next x y z w bs' hx hy hz hw hr =>
          injection h with h
          subst h
          have lx := (char_sextet al _ _ hx).2; have ly := (char_sextet al _ _ hy).2
          have lz := (char_sextet al _ _ hz).2; have lw := (char_sextet al _ _ hw).2
          simp only [encode, List.cons.injEq]
          rw [UInt8.toNat_ofNat_of_lt' (by show _ < 256; omega), UInt8.toNat_ofNat_of_lt' (by show _ < 256; omega),
            UInt8.toNat_ofNat_of_lt' (by show _ < 256; omega)]
          exact ⟨key hx (by omega), key hy (by omega), key hz (by omega), key hw (by omega),
            encode_decodeQuanta al r _ hr⟩
        · cases h

/-- `utf8.ValidString` -/
theorem validString_iff (s : Str) :
    validString s = true ↔ ∃ cs : List Nat, (∀ c ∈ cs, Verif.Text.Scalar c) ∧ s = cs.flatMap Verif.Text.encode := by
  constructor
  · fun_induction validString s with
    | case1 => exact fun _ => ⟨[], by simp, rfl⟩
    | case2 b t ih =>
      intro h
      simp only [Bool.and_eq_true, Bool.not_eq_true', Bool.and_eq_false_iff, decide_eq_false_iff_not] at h
      obtain ⟨cs, h1, h2⟩ := ih h.2
      obtain ⟨e1, e2⟩ := Verif.Text.encode_decode (s := b :: t) (by simp) h.1
      refine ⟨Verif.Text.decode (b :: t) :: cs, ?_, ?_⟩
      · intro c hc
        rcases List.mem_cons.mp hc with rfl | hc
        · exact e1
        · exact h1 c hc
      · rw [List.flatMap_cons, e2, ← h2, List.take_append_drop]
  · rintro ⟨cs, h1, rfl⟩
    induction cs with
    | nil => rw [List.flatMap_nil, validString]
    | cons c cs ih =>
      have ih := ih fun c' h => h1 c' (by simp [h])
      obtain ⟨d1, d2⟩ := Verif.Text.decode_encode (h1 c (by simp)) (cs.flatMap Verif.Text.encode)
      rw [List.flatMap_cons]
      have hl : Verif.Text.encode c ≠ [] ∧ (c = Verif.Text.runeError → (Verif.Text.encode c).length ≠ 1) := by
        refine ⟨by unfold Verif.Text.encode; split <;> (try split) <;> (try split) <;> (try split) <;> simp, ?_⟩
        rintro rfl
        decide
      cases he : Verif.Text.encode c ++ cs.flatMap Verif.Text.encode with
      | nil => exact absurd (List.append_eq_nil_iff.mp he).1 hl.1
      | cons b t =>
        rw [validString, ← he, d1, d2, List.drop_left, ih, Bool.and_true, Bool.not_eq_true', Bool.and_eq_false_iff]
        by_cases e : c = Verif.Text.runeError
        · exact .inr (by simpa using hl.2 e)
        · exact .inl (by simpa using e)

end Verif.Binary
