import Verif.Types.NewLemmas
/-!
# C76: what `New` converts

`conv E L` are the conversions of the code (`Verif/Types/NewConv`), for any `E` and `L`: what is open in them is not used below, but for
`strings.EqualFold`.
-/
set_option autoImplicit false
set_option linter.unusedSimpArgs false
namespace Verif.Types
open Verif.Value Verif.Text
variable {E : Env} {L : Lib}

namespace Ex
/-- what is left open, for the examples -/
def L0 : Lib where
  parseFloat _ := none
  unix _ := 0
  seconds _ := 0
  ofUnix _ := 0
  ofSeconds _ := 0
  parseTime _ := none
  str _ := []
  sprintf _ _ := none
/-- `strings.EqualFold` for ASCII -/
def E1 : Env := { E0 with fold := fun a b => a.map lower == b.map lower }
end Ex

/-- **C76.**  A text is converted to an integer type if it is a numeral of the radix, of a number that has 64 bits and is an instance of the
type; the result is that number.  All other texts are refused. -/
theorem C76_int {t : Ty} (ht : IntType t) {r : BitVec 64} (hr : r = 2 ∨ r = 8 ∨ r = 10 ∨ r = 16) (s : Str) (v : Val) :
    new E (conv E L) t (.args [.str s, .int r]) = some v ↔
      ∃ n, Numeral r.toNat s n ∧ -2 ^ 63 ≤ n ∧ n < 2 ^ 63 ∧ v = .int (BitVec.ofInt 64 n) ∧ instanceOf E t v = true := by
  have hrad : isRadix r = true := by rcases hr with rfl | rfl | rfl | rfl <;> decide
  have hn : new E (conv E L) t (.args [.str s, .int r]) =
      ((parseRadix r.toNat s).map (BitVec.ofInt 64)).bind fun i => check E t (.int i) := by
    cases ht <;> simp only [new, newInt, hrad, if_true, intFrom, conv]
  rw [hn, Option.bind_eq_some_iff]
  simp only [Option.map_eq_some_iff, check]
  constructor
  · rintro ⟨i, ⟨n, hp, rfl⟩, h⟩
    obtain ⟨a, b, c⟩ := parseRadix_iff.1 hp
    split at h
    · cases h; exact ⟨n, a, b, c, rfl, by assumption⟩
    · cases h
  · rintro ⟨n, a, b, c, rfl, h⟩
    exact ⟨_, ⟨n, parseRadix_iff.2 ⟨a, b, c⟩, rfl⟩, if_pos h⟩

/-- The text `-7f` -/
example : Numeral 16 [45, 55, 102] (-127) :=
  ⟨[55, 102], [7, 15], by simp, .cons (by unfold Digit; simp) (.cons (by unfold Digit; simp) .nil), by simp, .inr ⟨rfl, rfl⟩⟩
example : Ex.isInt (-127) (new Ex.E0 (conv Ex.E0 Ex.L0) .intT (.args [.str [45, 55, 102], Ex.i 16])) = true ∧
    (new Ex.E0 (conv Ex.E0 Ex.L0) .intT (.args [.str [45, 55, 102], Ex.i 10])).isNone = true := by decide +kernel

/-- **C76.**  A numeral stands for one number, so there is no other result. -/
theorem C76_int_unique {radix : Nat} {s : Str} {m n : Int} (h : Numeral radix s m) (h' : Numeral radix s n) : m = n := numeral_unique h h'
example : ∀ n, Numeral 10 [43, 55] n → n = 7 := fun n h =>
  numeral_unique h ⟨[55], [7], by simp, .cons (by unfold Digit; simp) .nil, by simp, .inl ⟨.inr rfl, rfl⟩⟩

/-- **C76.**  Without a radix the text is a decimal numeral, and a radix other than 2, 8, 10 and 16 is refused, whatever is converted. -/
theorem C76_radix {t : Ty} (ht : IntType t) :
    (∀ v, new E (conv E L) t (.one v) = new E (conv E L) t (.args [v, .int 10]) ∧
      new E (conv E L) t (.args [v]) = new E (conv E L) t (.args [v, .int 10])) ∧
    ∀ v w, (∀ r : BitVec 64, w = .int r → r ≠ 2 ∧ r ≠ 8 ∧ r ≠ 10 ∧ r ≠ 16) → new E (conv E L) t (.args [v, w]) = none := by
  refine ⟨fun v => ?_, fun v w h => ?_⟩
  · have : isRadix 10 = true := by decide
    cases ht <;> simp only [new, newInt, this, if_true, and_self]
  · have hn : new E (conv E L) t (.args [v, w]) = newInt E (conv E L) t (.args [v, w]) := by cases ht <;> rfl
    rw [hn]
    cases w with
    | int r =>
      obtain ⟨a, b, c, d⟩ := h r rfl
      have : isRadix r = false := by have e : ∀ x : BitVec 64, r ≠ x → (r == x) = false := fun x h => beq_eq_false_iff_ne.2 h; rw [isRadix, e _ a, e _ b, e _ c, e _ d]; rfl
      simp only [newInt, this, Bool.false_eq_true, if_false]
    | _ => rfl
example : (new Ex.E0 (conv Ex.E0 Ex.L0) .intT (.args [Ex.i 7, Ex.i 0])).isNone = true := by decide +kernel

/-- **C76.**  The text of an integer, made without a format or with one of the formats for integers, is converted back to that integer with
the radix of the format. -/
theorem C76_int_round {t : Ty} (ht : IntType t) (i : BitVec 64) (hi : instanceOf E t (.int i) = true) :
    ((new E (conv E L) .strT (.one (.int i))).bind fun s => new E (conv E L) t (.one s)) = some (.int i) ∧
    ∀ f ∈ formats, ((new E (conv E L) .strT (.args [.int i, .str f.1])).bind fun s => new E (conv E L) t (.args [s, .int f.2])) =
      some (.int i) := by
  have hlo := i.le_two_mul_toInt
  have hhi := i.two_mul_toInt_lt
  have key : ∀ {r : BitVec 64} (hr : r = 2 ∨ r = 8 ∨ r = 10 ∨ r = 16) (u : Bool),
      new E (conv E L) t (.args [.str (formatRadix r.toNat u i.toInt), .int r]) = some (.int i) := by
    intro r hr u
    rw [C76_int ht hr]
    refine ⟨i.toInt, formatRadix_numeral ?_ ?_ u _, by omega, by omega, by rw [BitVec.ofInt_toInt], hi⟩ <;>
      rcases hr with rfl | rfl | rfl | rfl <;> decide
  have hstr : ∀ s, check E .strT (.str s) = some (.str s) := fun s => if_pos rfl
  refine ⟨?_, ?_⟩
  · have : new E (conv E L) .strT (.one (.int i)) = some (.str (formatRadix 10 false i.toInt)) := by
      rw [← formatInt_radix]; exact hstr _
    rw [this, Option.bind_some, ((C76_radix ht).1 _).1]
    exact key (r := 10) (by simp) false
  · intro f hf
    have h : ∀ {fm : Str} {r : BitVec 64} {u : Bool}, (hr : r = 2 ∨ r = 8 ∨ r = 10 ∨ r = 16) →
        sprintf L fm (.int i) = some (formatRadix r.toNat u i.toInt) →
        ((new E (conv E L) .strT (.args [.int i, .str fm])).bind fun s => new E (conv E L) t (.args [s, .int r])) = some (.int i) := by
      intro fm r u hr hs
      have : new E (conv E L) .strT (.args [.int i, .str fm]) = some (.str (formatRadix r.toNat u i.toInt)) := by
        simp only [new, newString, conv, hs, Option.bind_some, hstr]
      rw [this, Option.bind_some]
      exact key hr u
    have hf' : formats = [([37, 98], 2), ([37, 111], 8), ([37, 100], 10), ([37, 120], 16), ([37, 88], 16)] := by decide
    rw [hf'] at hf
    simp only [List.mem_cons, List.not_mem_nil, or_false] at hf
    rcases hf with rfl | rfl | rfl | rfl | rfl
    · exact h (u := false) (by simp) rfl
    · exact h (u := false) (by simp) rfl
    · exact h (u := false) (by simp) rfl
    · exact h (u := false) (by simp) rfl
    · exact h (u := true) (by simp) rfl
example : formatRadix 16 true (-255) = [45, 70, 70] ∧ formatRadix 2 false 5 = [49, 48, 49] := by decide +kernel

/-- **C76.**  An ASCII text is true if it is `true`, `yes` or `y`, false if it is `false`, `no` or `n`, in upper or lower case or mixed, and is refused
otherwise. -/
theorem C76_bool (hE : FoldsAscii E) {s : Str} (hs : Ascii s) (v : Val) : new E (conv E L) .boolT (.one (.str s)) = some v ↔
    (s.map lower ∈ saysTrue ∧ v = .bool true) ∨ (s.map lower ∈ saysFalse ∧ v = .bool false) := by
  have e1 : saysTrue = trueStrings := by decide
  have e2 : saysFalse = falseStrings := by decide
  have any : ∀ bs : List Str, (∀ b ∈ bs, Ascii b ∧ b.map lower = b) → ((bs.any fun b => E.fold b s) = true ↔ s.map lower ∈ bs) := by
    intro bs h
    rw [List.any_eq_true]
    constructor
    · rintro ⟨b, hb, hf⟩
      rw [hE b s (h b hb).1 hs, (h b hb).2] at hf
      exact hf ▸ hb
    · intro hm
      exact ⟨_, hm, (hE _ s (h _ hm).1 hs).2 (h _ hm).2⟩
  have ht : ∀ b ∈ trueStrings, Ascii b ∧ b.map lower = b := by unfold Ascii; decide
  have hf : ∀ b ∈ falseStrings, Ascii b ∧ b.map lower = b := by unfold Ascii; decide
  have at' := any _ ht
  have aa := any (trueStrings ++ falseStrings) (fun b hb => (List.mem_append.1 hb).elim (ht b) (hf b))
  have disj : ∀ b ∈ trueStrings, b ∉ falseStrings := by decide
  have hc : ∀ b, check E .boolT (.bool b) = some (.bool b) := fun b => if_pos rfl
  have hn : new E (conv E L) .boolT (.one (.str s)) =
      if ((trueStrings ++ falseStrings).any fun b => E.fold b s) = true then some (.bool (trueStrings.any fun b => E.fold b s)) else none := by
    have h1 : (conv E L).isBoolString s = (trueStrings ++ falseStrings).any fun b => E.fold b s := rfl
    have h2 : (conv E L).isTrueString s = trueStrings.any fun b => E.fold b s := rfl
    simp only [new, newBoolean, Arg.single, Option.bind_some, h2]
    by_cases h : (conv E L).isBoolString s = true
    · rw [if_pos h, Option.bind_some, hc, if_pos (h1 ▸ h)]
    · rw [if_neg h, Option.bind_none, if_neg (h1 ▸ h)]
  rw [hn, e1, e2]
  by_cases h1 : s.map lower ∈ trueStrings
  · rw [if_pos (aa.2 (List.mem_append.2 (.inl h1))), at'.2 h1]
    have := disj _ h1
    simp [h1, this, eq_comm]
  · have hfl : (trueStrings.any fun b => E.fold b s) = false := by
      cases h : trueStrings.any fun b => E.fold b s with
      | false => rfl
      | true => exact absurd (at'.1 h) h1
    by_cases h2 : s.map lower ∈ falseStrings
    · rw [if_pos (aa.2 (List.mem_append.2 (.inr h2))), hfl]
      simp [h1, h2, eq_comm]
    · rw [if_neg fun h => (List.mem_append.1 (aa.1 h)).elim h1 h2]
      simp [h1, h2]
example : FoldsAscii Ex.E1 := fun a b _ _ => by simp [Ex.E1]
/-- The text `YeS` -/
example : Ascii [89, 101, 83] ∧ [89, 101, 83].map lower ∈ saysTrue := by unfold Ascii; decide

/-- **C76.**  A boolean made a text or an integer is converted back to that boolean; an integer is true if it is not 0. -/
theorem C76_bool_round (hE : FoldsAscii E) (b : Bool) :
    ((new E (conv E L) .strT (.one (.bool b))).bind fun s => new E (conv E L) .boolT (.one s)) = some (.bool b) ∧
    ((new E (conv E L) .intT (.one (.bool b))).bind fun i => new E (conv E L) .boolT (.one i)) = some (.bool b) ∧
    ∀ i : BitVec 64, new E (conv E L) .boolT (.one (.int i)) = some (.bool (decide (i.toInt ≠ 0))) := by
  have hc : ∀ b, check E .boolT (.bool b) = some (.bool b) := fun b => if_pos rfl
  have hi : ∀ i, check E .intT (.int i) = some (.int i) := fun b => if_pos rfl
  have hstr : ∀ s, check E .strT (.str s) = some (.str s) := fun s => if_pos rfl
  refine ⟨?_, ?_, fun i => ?_⟩
  · have : new E (conv E L) .strT (.one (.bool b)) = some (.str (stringOf L (.bool b))) := hstr _
    rw [this, Option.bind_some, C76_bool hE]
    · cases b
      · exact .inr ⟨by simp only [stringOf]; decide, rfl⟩
      · exact .inl ⟨by simp only [stringOf]; decide, rfl⟩
    · cases b <;> (simp only [stringOf]; unfold Ascii; decide)
  · have : new E (conv E L) .intT (.one (.bool b)) = some (.int (if b then 1 else 0)) := by
      simp only [new, newInt, intFrom, Option.bind_some, hi]
    rw [this, Option.bind_some]
    cases b <;> simp [new, newBoolean, Arg.single, hc]
  · have h0 : (i != 0) = decide (i.toInt ≠ 0) := by
      rw [Bool.eq_iff_iff, bne_iff_ne, decide_eq_true_iff]
      exact not_congr ⟨fun h => by rw [h]; rfl, fun h => BitVec.eq_of_toInt_eq (by rw [h]; rfl)⟩
    simp only [new, newBoolean, Arg.single, Option.bind_some, hc, h0]
example : (BitVec.ofInt 64 (-1)).toInt ≠ 0 := by decide

/-- **C76.**  A binary made a text, and the array of its bytes, are converted back to that binary; with the format `%r` the bytes of a text are
taken as they are. -/
theorem C76_binary {min max : Int} {b : List UInt8} (hb : instanceOf E (.bin min max) (.bin b) = true) :
    ((new E (conv E L) .strT (.one (.bin b))).bind fun s => new E (conv E L) (.bin min max) (.one s)) = some (.bin b) ∧
    new E (conv E L) (.bin min max) (.one (.arr (b.map fun c => .int (BitVec.ofNat 64 c.toNat)))) = some (.bin b) ∧
    new E (conv E L) (.bin min max) (.args [.str b, .str [37, 114]]) = some (.bin b) := by
  have hc : check E (.bin min max) (.bin b) = some (.bin b) := if_pos hb
  have hstr : ∀ s, check E .strT (.str s) = some (.str s) := fun s => if_pos rfl
  have hbs : ∀ b : List UInt8, bytesOf (b.map fun c => .int (BitVec.ofNat 64 c.toNat)) = some b := by
    intro b
    induction b with
    | nil => rfl
    | cons c b ih =>
      have h1 : ∀ c : Fin 256, ((0 : BitVec 64).sle (BitVec.ofNat 64 c) && (BitVec.ofNat 64 c).sle 255) = true := by decide +kernel
      have hlt := c.toNat_lt
      have h2 : (BitVec.ofNat 64 c.toNat).toNat.toUInt8 = c := by
        rw [BitVec.toNat_ofNat, Nat.mod_eq_of_lt (by omega)]; simp
      simp only [List.map_cons, bytesOf, ih, Option.map_some]
      rw [if_pos (h1 ⟨c.toNat, hlt⟩), h2]
  refine ⟨?_, ?_, ?_⟩
  · have : new E (conv E L) .strT (.one (.bin b)) = some (.str (Binary.text b)) := hstr _
    rw [this, Option.bind_some]
    simp only [new, newBinary, Arg.single, Option.bind_some, conv, decodeWith, (Verif.Binary.C50_text b).1, hc]
  · simp only [new, newBinary, Arg.single, Option.bind_some, hbs, hc]
  · simp only [new, newBinary, conv, decodeWith, (Verif.Binary.C50_raw b).1, Option.bind_some, hc]
example : instanceOf Ex.E0 (.bin 2 4) (.bin [1, 255, 0]) = true := by decide +kernel

/-- **C76.**  The encodings of the text: `%B` and `%b` read the standard base64 alphabet, `%u` the one for URLs, `%s` takes UTF-8 as it is and
refuses other bytes; there is no other encoding. -/
theorem C76_encodings {min max : Int} {b : List UInt8} (hb : instanceOf E (.bin min max) (.bin b) = true) :
    new E (conv E L) (.bin min max) (.args [.str (Binary.encode .std b), .str [37, 66]]) = some (.bin b) ∧
    new E (conv E L) (.bin min max) (.args [.str (Binary.encode .std b), .str [37, 98]]) = some (.bin b) ∧
    new E (conv E L) (.bin min max) (.args [.str (Binary.encode .url b), .str [37, 117]]) = some (.bin b) ∧
    ((∃ cs : List Nat, (∀ c ∈ cs, Scalar c) ∧ b = cs.flatMap Text.encode) →
      new E (conv E L) (.bin min max) (.args [.str b, .str [37, 115]]) = some (.bin b)) ∧
    ((¬∃ cs : List Nat, (∀ c ∈ cs, Scalar c) ∧ b = cs.flatMap Text.encode) →
      new E (conv E L) (.bin min max) (.args [.str b, .str [37, 115]]) = none) ∧
    ∀ s e, e ∉ [[37, 66], [37, 98], [37, 117], [37, 115], [37, 114]] → new E (conv E L) (.bin min max) (.args [.str s, .str e]) = none := by
  have hc : check E (.bin min max) (.bin b) = some (.bin b) := if_pos hb
  have t1 : Binary.text b = Binary.encode .std b := rfl
  have ht := Verif.Binary.C50_text b
  have hr := Verif.Binary.C50_raw b
  rw [t1] at ht
  refine ⟨?_, ?_, ?_, fun h => ?_, fun h => ?_, fun s e he => ?_⟩
  · simp only [new, newBinary, conv, decodeWith, ht.1, Option.bind_some, hc]
  · simp only [new, newBinary, conv, decodeWith, ht.2, Option.bind_some, hc]
  · simp only [new, newBinary, conv, decodeWith, Verif.Binary.C50_url b, Option.bind_some, hc]
  · simp only [new, newBinary, conv, decodeWith, hr.2.1 h, Option.bind_some, hc]
  · simp only [new, newBinary, conv, decodeWith, hr.2.2 h, Option.bind_none]
  · have : decodeWith s e = none := by
      unfold decodeWith
      split <;> first | rfl | (exfalso; exact he (by simp))
    simp only [new, newBinary, conv, this, Option.bind_none]
example : Binary.encode .url [255, 255, 255] = [95, 95, 95, 95] ∧ [37, 120] ∉ [[37, 66], [37, 98], [37, 117], [37, 115], [37, 114]] := by decide

/-- **C76.**  An array of anything but integers from 0 to 255 is refused. -/
theorem C76_binary_refused {min max : Int} {vs : List Val} {w : Val} (hw : w ∈ vs) (h : ∀ i : BitVec 64, w = .int i → i.toInt < 0 ∨ 255 < i.toInt) :
    new E (conv E L) (.bin min max) (.one (.arr vs)) = none := by
  have : bytesOf vs = none := by
    induction vs with
    | nil => cases hw
    | cons v vs ih =>
      cases v <;> try rfl
      rename_i i
      rw [bytesOf]
      rcases List.mem_cons.1 hw with rfl | hw
      · have := h i rfl
        rw [if_neg]
        simp only [Bool.and_eq_true, BitVec.sle_iff_toInt_le]
        have e1 : (0 : BitVec 64).toInt = 0 := by decide
        have e2 : (255 : BitVec 64).toInt = 255 := by decide
        rw [e1, e2]; omega
      · rw [ih hw]; split <;> rfl
  simp only [new, newBinary, Arg.single, Option.bind_some, this, Option.bind_none]
example : ∀ i : BitVec 64, (Ex.i 256) = .int i → i.toInt < 0 ∨ 255 < i.toInt := by
  intro i h; cases h; decide

/-- **C76.**  A map is converted to the array of its entries, in order; all other values that are not arrays are refused. -/
theorem C76_array (v : Val) (w : Val) (hv : ∀ vs, v ≠ .arr vs) : new E (conv E L) .arrT (.one v) = some w ↔
    ∃ es, v = .map es ∧ w = .arr (es.map fun e => .entry e.1 e.2) := by
  have hc : ∀ vs, check E .arrT (.arr vs) = some (.arr vs) := fun b => if_pos rfl
  cases v <;> simp [new, newArray, Arg.single, conv, arrayFrom, hc, eq_comm] at hv ⊢
example : ∀ vs, Val.map [(Ex.i 1, Ex.s 97)] ≠ .arr vs := by intro vs h; cases h

/-- **C76.**  An array of keys and values is converted to the map of them, and the array of its entries has them in that order.
Missing: when a key is repeated the result is no map (`C76_map_violated`; C05). -/
theorem C76_map_partial (es : List (Val × Val)) : new E (conv E L) .mapT (.one (.arr (flat es))) = some (.map es) := by
  have hc : check E .mapT (.map es) = some (.map es) := if_pos rfl
  have hp : mapFrom (.arr (flat es)) = .map es := by
    have h1 : ∀ es, toPairs (flat es) = es := by
      intro es
      induction es with
      | nil => rfl
      | cons e es ih => simpa [flat, toPairs] using ih
    have h2 : (flat es).length % 2 = 0 := by
      clear hc
      induction es with
      | nil => rfl
      | cons e es ih => simp [flat] at ih ⊢; omega
    rw [mapFrom, if_pos h2, h1]
  simp only [new, newMap, Arg.single, Option.bind_some, conv, hp, hc]
example : Diff [(Ex.i 1, Ex.s 97), (Ex.i 2, Ex.s 97)] := by unfold Diff; simp [Ex.i, Value.eq]

/-- **C76.**  Violated: an array with an odd number of elements, a text, a binary, ... are not refused as the message of the panic says, but give a
map of the private fields of the Go struct that holds the value; and a repeated key gives a map with two entries for it. -/
theorem C76_map_violated :
    (∀ vs : List Val, vs.length % 2 = 1 → mapFrom (.arr vs) = .fields) ∧ (∀ s, mapFrom (.str s) = .fields) ∧ (∀ b, mapFrom (.bin b) = .fields) ∧
    ∃ vs es, new Ex.E0 (conv Ex.E0 Ex.L0) .mapT (.one (.arr vs)) = some (.map es) ∧ ¬ Diff es := by
  refine ⟨fun vs h => by rw [mapFrom, if_neg (by omega)], fun _ => rfl, fun _ => rfl, flat [(Ex.i 1, Ex.s 97), (Ex.i 1, Ex.s 98)], _,
    C76_map_partial _, ?_⟩
  unfold Diff
  simp [Ex.i, Value.eq]
example : [Ex.i 1].length % 2 = 1 := rfl

end Verif.Types
