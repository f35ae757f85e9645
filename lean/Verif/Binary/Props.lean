import Verif.Binary.Lemmas
/-!
# C50: binary values
-/
set_option autoImplicit false
namespace Verif.Binary
open Verif.Value (Str)

/-- A program that makes the slice `{1, 2, 3}`, a frozen and a thawed binary from its first two bytes -/
def exampleSt : St :=
  { arrays := [[1, 2, 3], [1, 2]], objs := [⟨⟨1, 0, 2⟩, true⟩, ⟨⟨0, 0, 2⟩, false⟩], known := [0] }

theorem exampleSt_steps : Steps St.init exampleSt :=
  ((Steps.refl.tail (Step.make [1, 2, 3])).tail
    (Step.binary ⟨0, 0, 2⟩ true (by simp [St.alloc, St.init]) ⟨[1, 2, 3], rfl, by decide⟩)).tail
    (Step.binary ⟨0, 0, 2⟩ false (by simp [St.alloc, St.init, St.binary, St.new]) ⟨[1, 2, 3], rfl, by decide⟩)

/-- **C50** Whatever a program does (make and write slices, make, copy and freeze binaries, take their bytes and write those), a
frozen binary keeps its bytes and stays frozen. -/
theorem C50_frozen {s t : St} (h : Steps St.init s) {b : Nat} {o : Obj} (hb : s.objs[b]? = some o) (hf : o.frozen = true)
    (st : Steps s t) : t.bytes b = s.bytes b ∧ ∃ o', t.objs[b]? = some o' ∧ o'.frozen = true := by
  have := steps_frozen (Inv.init.steps h) st hb hf
  refine ⟨?_, o, this.1, hf⟩
  simp only [St.bytes, this.1, hb, Option.map_some, this.2]

/-- The slice that both binaries were made from is written. -/
example : ∃ t, Steps exampleSt t ∧ t.bytes 0 = some [1, 2] ∧ t.bytes 1 = some [9, 2] :=
  ⟨_, Steps.refl.tail (Step.write 0 0 9 (by simp [exampleSt])), rfl, rfl⟩
/-- The bytes of the frozen one are taken and written. -/
example : ∃ t, Steps exampleSt t ∧ t.arrays[2]? = some [1, 7] ∧ t.bytes 0 = some [1, 2] :=
  ⟨_, (Steps.refl.tail (Step.goBytes 0 (o := ⟨⟨1, 0, 2⟩, true⟩) rfl)).tail
    (Step.write 2 1 7 (by simp [exampleSt, St.goBytes, St.alloc])), rfl, rfl⟩
example (t : St) (st : Steps exampleSt t) : t.bytes 0 = some [1, 2] := (C50_frozen exampleSt_steps rfl rfl st).1

/-- **C50** A binary has the bytes that it was made from. -/
theorem C50_made (s : St) (x : Slice) (frozen : Bool) :
    (s.binary x frozen).bytes s.objs.length = some (s.read x) ∧
      (s.binary x frozen).objs[s.objs.length]?.map Obj.frozen = some frozen := by
  unfold St.binary
  cases frozen with
  | true =>
    have := @read_alloc_new s (s.read x)
    refine ⟨?_, by simp [St.new, St.alloc]⟩
    simp only [if_true, St.bytes, St.new, St.alloc, Option.map_some, List.getElem?_append_right (Nat.le_refl _), Nat.sub_self,
      List.getElem?_cons_zero] at this ⊢
    exact congrArg some this
  | false => simp [St.bytes, St.new, St.read]
example : exampleSt.valid ⟨0, 1, 2⟩ ∧ (exampleSt.binary ⟨0, 1, 2⟩ true).bytes 2 = some [2, 3] := ⟨⟨_, rfl, by decide⟩, by decide⟩

/-- **C50** A binary that is made of a text or of what a reader gives has those bytes, is frozen, and keeps them whatever a program does. -/
theorem C50_read (s : St) (h : Steps St.init s) (bs : List UInt8) {t : St} (st : Steps (s.fromBytes bs) t) :
    t.bytes s.objs.length = some bs ∧ t.objs[s.objs.length]?.map Obj.frozen = some true := by
  have hm : (s.fromBytes bs).bytes s.objs.length = some bs := by
    have := @read_alloc_new s bs
    unfold St.fromBytes
    simp only [St.bytes, St.new, St.alloc, Option.map_some, List.getElem?_append_right (Nat.le_refl _), Nat.sub_self,
      List.getElem?_cons_zero] at this ⊢
    exact congrArg some this
  obtain ⟨h1, o, h2, h3⟩ := C50_frozen (b := s.objs.length) (o := ⟨⟨s.arrays.length, 0, bs.length⟩, true⟩) (h.tail (Step.fromBytes bs)) (by
    simp only [St.fromBytes, St.new, St.alloc, List.getElem?_append_right (Nat.le_refl _), Nat.sub_self, List.getElem?_cons_zero]) rfl st
  exact ⟨h1.trans hm, by rw [h2]; exact congrArg some h3⟩
example : (exampleSt.fromBytes [5, 6]).bytes 2 = some [5, 6] := by decide

/-- **C50** A binary that is not frozen shares the slice that it was made from: this is what the documentation of `Binary` says. -/
theorem C50_wrapped (s : St) (x : Slice) (hv : s.valid x) (i : Nat) (v : UInt8) :
    let t := s.binary x false
    ({ t with arrays := t.arrays.set x.arr ((t.arrays.getD x.arr []).set (x.off + i) v) } : St).bytes s.objs.length =
      some ((s.read x).set i v) := by
  obtain ⟨bs, h1, h2⟩ := hv
  have hlt := (List.getElem?_eq_some_iff.mp h1).1
  simp only [St.binary, St.new, St.bytes, St.read, Bool.false_eq_true, if_false]
  simp only [List.getElem?_append_right (Nat.le_refl _), Nat.sub_self, List.getElem?_cons_zero, Option.map_some,
    List.getD_eq_getElem?_getD, List.getElem?_set_self hlt, Option.getD_some, h1, Option.some.injEq]
  rw [List.drop_set, if_neg (by omega), List.take_set]
  congr 1
  omega
example : exampleSt.valid ⟨0, 1, 2⟩ := ⟨_, rfl, by decide⟩

/-- **C50** Freezing keeps the bytes of every binary. -/
theorem C50_freeze {s : St} (h : Steps St.init s) {b : Nat} {o : Obj} (hb : s.objs[b]? = some o) :
    (∀ b', (s.freeze b o).bytes b' = s.bytes b') ∧ (s.freeze b o).objs[b]?.map Obj.frozen = some true := by
  have inv := Inv.init.steps h
  unfold St.freeze
  split
  · have hlt := (List.getElem?_eq_some_iff.mp hb).1
    refine ⟨fun b' => ?_, by simp [St.alloc, List.getElem?_set_self hlt]⟩
    by_cases e : b = b'
    · subst e
      have := @read_alloc_new s (s.read o.bytes)
      simp only [St.bytes, St.alloc, List.getElem?_set_self hlt, Option.map_some, hb] at this ⊢
      exact congrArg some this
    · simp only [St.bytes, St.alloc, List.getElem?_set_ne e]
      cases hb' : s.objs[b']? with
      | none => rfl
      | some o' => exact congrArg some (read_append (bs := s.read o.bytes) (valid_lt (inv.valid b' o' hb')))
  · next hf => exact ⟨fun _ => rfl, by simp only [hb, Option.map_some]; simpa using hf⟩
example : exampleSt.objs[1]? = some ⟨⟨0, 0, 2⟩, false⟩ ∧ (exampleSt.freeze 1 ⟨⟨0, 0, 2⟩, false⟩).bytes 1 = some [1, 2] := by decide

/-- **C50** A copy has the bytes of the original and is frozen as asked for; no binary changes. -/
theorem C50_copy {s : St} (h : Steps St.init s) {b : Nat} {o : Obj} (hb : s.objs[b]? = some o) (frozen : Bool) :
    let c := s.copy b o frozen
    c.1.bytes c.2 = s.bytes b ∧ (c.1.objs[c.2]?).map Obj.frozen = some frozen ∧ (∀ b' < s.objs.length, c.1.bytes b' = s.bytes b') := by
  have inv := Inv.init.steps h
  unfold St.copy
  split
  · next hf =>
    simp only [Bool.and_eq_true] at hf
    exact ⟨rfl, by simp [hb, hf], fun _ _ => rfl⟩
  · refine ⟨?_, by simp [St.new, St.alloc], ?_⟩
    · have := @read_alloc_new s (s.read o.bytes)
      simp only [St.bytes, St.new, St.alloc, hb, Option.map_some, List.getElem?_append_right (Nat.le_refl _), Nat.sub_self,
        List.getElem?_cons_zero] at this ⊢
      exact congrArg some this
    · intro b' hlt
      simp only [St.bytes, St.new, St.alloc, List.getElem?_append_left hlt]
      cases hb' : s.objs[b']? with
      | none => rfl
      | some o' => exact congrArg some (read_append (bs := s.read o.bytes) (valid_lt (inv.valid b' o' hb')))
example : (exampleSt.copy 0 ⟨⟨1, 0, 2⟩, true⟩ false).2 = 2 ∧
    (exampleSt.copy 0 ⟨⟨1, 0, 2⟩, true⟩ false).1.bytes 2 = some [1, 2] := by decide

/-- **C50** The bytes that are handed out are those of the binary. -/
theorem C50_goBytes {s : St} {b : Nat} {o : Obj} (hb : s.objs[b]? = some o) :
    some ((s.goBytes o).1.read (s.goBytes o).2) = s.bytes b := by
  unfold St.goBytes
  split
  · rw [read_alloc_new]; simp [St.bytes, hb]
  · simp [St.bytes, hb]
example : exampleSt.objs[0]? = some ⟨⟨1, 0, 2⟩, true⟩ := rfl

/-- **C50** The text of a binary is read back, with both formats that use the standard alphabet; so different bytes have different
texts. -/
theorem C50_text (bs : List UInt8) :
    fromEncoded .B (text bs) = some bs ∧ fromEncoded .b (text bs) = some bs :=
  ⟨decode_encode .std true bs, decode_encode .std false bs⟩
example : text [77, 97, 110, 255] = [84, 87, 70, 117, 47, 119, 61, 61] := by decide

/-- **C50** With the strict format there is one text for each binary, but for line breaks. -/
theorem C50_text_unique (s : Str) (bs : List UInt8) (h : fromEncoded .B s = some bs) :
    text bs = s.filter fun c => c != 10 && c != 13 :=
  encode_decodeQuanta .std _ bs h
example : fromEncoded .B [84, 87, 70, 117, 10, 47, 119, 61, 61] = some [77, 97, 110, 255] := by decide
/-- The format `%b` is more lenient. -/
example : fromEncoded .b [47, 120, 61, 61] = some [255] ∧ fromEncoded .B [47, 120, 61, 61] = none := by
  decide

/-- **C50** The format `%u` reads the URL alphabet, which differs from that of `String`: the text of a binary is not always read back
with it. -/
theorem C50_url (bs : List UInt8) : fromEncoded .u (encode .url bs) = some bs :=
  decode_encode .url false bs
example : fromEncoded .u (text [255, 255, 255]) = none := by decide

/-- **C50** With `%r` every text is taken as it is, with `%s` if it is the UTF-8 of some characters and not otherwise. -/
theorem C50_raw (s : Str) :
    fromEncoded .r s = some s ∧
    ((∃ cs : List Nat, (∀ c ∈ cs, Verif.Text.Scalar c) ∧ s = cs.flatMap Verif.Text.encode) → fromEncoded .s s = some s) ∧
    ((¬∃ cs : List Nat, (∀ c ∈ cs, Verif.Text.Scalar c) ∧ s = cs.flatMap Verif.Text.encode) → fromEncoded .s s = none) := by
  refine ⟨rfl, fun h => ?_, fun h => ?_⟩
  · rw [fromEncoded, if_pos ((validString_iff s).mpr h)]
  · rw [fromEncoded, if_neg fun e => h ((validString_iff s).mp e)]
example : fromEncoded .s [97, 195, 169] = some [97, 195, 169] ∧ fromEncoded .s [97, 195] = none ∧ fromEncoded .s [237, 160, 128] = none := by
  decide +kernel

end Verif.Binary
