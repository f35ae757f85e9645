import Verif.Stream.BytesData
import Verif.Stream.JsonProps
/-!
# C84, C85, C86: the bytes of JSON
-/
set_option autoImplicit false
set_option linter.unusedVariables false
namespace Verif.Stream
open Verif.Value (Str)

/-! ## C84 -/

/-- **C84** What `MarshalJSON` returns is a JSON text (RFC 8259), byte for byte: for every value, de-duplication level, dialect and sharing, with
strings of any bytes.  `E` writes floats as numbers. -/
theorem C84_written (o : Options) (E : JEnv) (bf : Bool) (h : Heap) (fuel : Nat) (r : Ref) (bs : Str) (hE : FloatsAreNumbers E) (hn : o.names = none)
    (hm : marshalBytes o E bf h fuel r = .ok bs) : JsonText bs := by
  obtain ⟨ts, h1, h2⟩ := (marshalBytes_text hE bf o h fuel r).1 bs hm
  exact ⟨ts, C47_marshalJSON o E h fuel r ts hn h1, h2⟩

/-- `1.5` is a number. -/
theorem exEnv_numbers : FloatsAreNumbers exEnv := by
  intro f x hx
  cases hx
  refine ⟨[], [49], [46, 53], [], by decide, .inl rfl, .inr ⟨49, [], rfl, by unfold IsDigit; decide, by decide, by simp⟩, .inr ⟨[53], ?_, rfl⟩, .inl rfl⟩
  exact ⟨by simp, by intro b hb; simp only [List.mem_singleton] at hb; subst hb; unfold IsDigit; decide⟩

/-- An array with a string of a quote, a newline, a `<`, a control character, U+2028, `é` and a byte that is not UTF-8 -/
def quoteHeap : Heap := heapOf [.arr [.atom (.str [34, 10, 60, 1, 0xE2, 0x80, 0xA8, 0xC3, 0xA9, 0xFF]), .atom (.float 0), .atom .nil]]

theorem quote_bytes : marshalBytes (exOptions 1) exEnv false quoteHeap 9 (.obj 0)
    = .ok (txt "[\"\\\"\\n\\u003c\\u0001\\u2028" ++ [0xC3, 0xA9] ++ txt "\\ufffd\",1.5,null]") := by decide +kernel

example : JsonText (txt "[\"\\\"\\n\\u003c\\u0001\\u2028" ++ [0xC3, 0xA9] ++ txt "\\ufffd\",1.5,null]") :=
  C84_written (exOptions 1) exEnv false quoteHeap 9 (.obj 0) _ exEnv_numbers rfl quote_bytes

/-- **C84** (partial) A value is read back from the bytes.  Partial as `C48_round_partial`, because the property is false otherwise. -/
theorem C84_round_partial (o : Options) (E : JEnv) (bf : Bool) (D : Decoder) (h : Heap) (r : Ref) (t : T) (e : Ev) (f0 n : Nat)
    (hE : FloatsAreNumbers E) (hs : Streamable o jsonConsumer h) (hdec : Decodable o jsonConsumer D h)
    (hone : o.dedup = 0 ∨ OnePlace (isRich jsonConsumer) h r)
    (hj : JsonSafe o E h r) (ht : Is h r t) (he : stream o jsonConsumer h f0 r = .ok e) (hw : walk 0 e = some n) (hn : n ≤ 2 ^ 63)
    (hd : o.dialect = dgoDialect ∨ (o.dialect = pcoreDialect ∧ noRefs e = true)) :
    ∃ F bs h' r', (∀ fuel, F ≤ fuel → marshalBytes o E bf h fuel r = .ok bs ∧ unmarshalBytes D E fuel bs = .ok (h', r')) ∧ Is h' r' t := by
  obtain ⟨F, ts, h', r', h1, h2⟩ := C48_round_partial o E D h r t e f0 n hs hdec hone hj ht he hw hn hd
  obtain ⟨bs, h3, h4⟩ := (marshalBytes_text hE bf o h F r).2 ts (h1 F (Nat.le_refl _)).1
  have hv := C47_grammar_partial o E h F r ts hs.named (h1 F (Nat.le_refl _)).1
  have hst : ∃ ev, stream o jsonConsumer h F r = .ok ev ∧ ∃ st, benc E bf .firstInArray ev = some (bs, st) := by
    unfold marshalBytes at h3
    split at h3
    · cases h3
    · cases h3
    · rename_i ev hev
      split at h3
      · cases h3
      · rename_i x hx; cases h3; exact ⟨ev, hev, x.2, hx⟩
  obtain ⟨ev, hev, st, hb⟩ := hst
  refine ⟨F, bs, h', r', ?_, h2⟩
  intro fuel hf
  refine ⟨?_, ?_⟩
  · simp only [marshalBytes, stream_mono hf hev, hb]
  · rw [unmarshalBytes_text hv h4]
    exact (h1 fuel hf).2

example (bf : Bool) : ∃ F bs h' r', (∀ fuel, F ≤ fuel → marshalBytes (exOptions 1) exEnv bf exHeap fuel (.obj 0) = .ok bs
    ∧ unmarshalBytes exDecoder exEnv fuel bs = .ok (h', r')) ∧ Is h' r' exTree :=
  C84_round_partial (exOptions 1) exEnv bf exDecoder exHeap (.obj 0) exTree (stream (exOptions 1) jsonConsumer exHeap 9 (.obj 0)).get 9 21
    exEnv_numbers (exStreamable 1 _) (exDecodable 1 _) (.inr (exOnePlace _ rfl)) (exSafe 1) ⟨5, rfl⟩ rfl (by decide +kernel) (by decide) (.inl rfl)

/-! ## C85 -/

/-- **C85** How a JSON text is spelled does not matter: two texts of the same tokens, with any blanks and escapes, are read as the same, or both
are refused. -/
theorem C85_spelling (D : Decoder) (E : JEnv) (fuel : Nat) (ts : List JTok) (bs bs' : Str) (hv : JVal ts) (h : Spells false ts bs)
    (h' : Spells false ts bs') : unmarshalBytes D E fuel bs = unmarshalBytes D E fuel bs' := by
  rw [unmarshalBytes_text hv h, unmarshalBytes_text hv h']

/-- `["a"]` and ` [ "\u0061" ]` -/
example (fuel : Nat) : unmarshalBytes exDecoder exEnv fuel (txt "[\"a\"]") = unmarshalBytes exDecoder exEnv fuel (txt " [ \"\\u0061\" ]") := by
  have hv : JVal [.lbrack, .str [97], .rbrack] := .arr _ (.one _ (.scalar _ rfl))
  refine C85_spelling exDecoder exEnv fuel [.lbrack, .str [97], .rbrack] _ _ hv ?_ ?_
  · exact .tok _ _ _ _ .lbrack (.tok _ _ _ _ (.str [97] [97] (.cons 97 [97] [] [] (.unescaped 97 (by decide) (by decide) (by decide) (by decide)) .nil))
      (.tok _ _ _ _ .rbrack .nil))
  · have hc : CharText false 97 ([92, 117] ++ [48, 48, 54, 49]) := .unicode 97 _ (by decide)
      ⟨48, 48, 54, 49, 0, 0, 6, 1, rfl, .inl (by decide), .inl (by decide), .inl (by decide), .inl (by decide), rfl⟩
    exact .blank 32 _ _ (.inl rfl) (.tok _ _ _ _ .lbrack (.blank 32 _ _ (.inl rfl) (.tok _ _ _ _ (.str [97] _ (.cons 97 _ [] [] hc .nil))
      (.blank 32 _ _ (.inl rfl) (.tok _ _ _ _ .rbrack .nil)))))

/-- **C85** (partial) What is read without a panic begins with a JSON value, in which bytes that are not UTF-8 and surrogates without a partner
may stand for U+FFFD (`Spells true`).  Partial: anything may follow (`C85_rest_violated`), and such bytes are not refused
(`C85_utf8_violated`). -/
theorem C85_only_partial (D : Decoder) (E : JEnv) (fuel : Nat) (bs : Str) (x : Heap × Ref) (h : unmarshalBytes D E fuel bs = .ok x) :
    ∃ p rest ts, bs = p ++ rest ∧ JVal ts ∧ Spells true ts p := unmarshalBytes_only h

/-- What is read, looking at most nine objects deep -/
def readBytes (D : Decoder) (E : JEnv) (bs : Str) : Option T :=
  match unmarshalBytes D E 40 bs with
  | .ok (h', r') => den h' 9 r'
  | _ => none

/-- Not read: a missing comma, a comma at the end, a number with a leading zero, a bare word, an object without names, the wrong bracket, an open
array -/
example : ∀ bs ∈ [txt "[1 2]", txt "[1,]", txt "[01]", txt "[nil]", txt "{1:2}", txt "[1}", txt "[1", txt "", txt "{\"a\" 1}", txt "[-]", txt "[1.]",
    txt "[\"\n\"]", txt "[\"\\x\"]"], unmarshalBytes exDecoder exEnv 40 bs matches .panic := by decide +kernel

/-- **C85** does not hold for what follows the first value: it is ignored. -/
theorem C85_rest_violated : readBytes exDecoder exEnv (txt "[true] x,]") = some (.arr [.bool true]) := same_some (by decide +kernel)

/-- **C85** does not hold for text that is not UTF-8: it is read, as something else. -/
theorem C85_utf8_violated : readBytes exDecoder exEnv [34, 97, 255, 34] = some (.str [97, 0xEF, 0xBF, 0xBD])
    ∧ readBytes exDecoder exEnv (txt "\"\\ud800\"") = some (.str [0xEF, 0xBF, 0xBD]) := ⟨same_some (by decide +kernel), same_some (by decide +kernel)⟩

/-! ## C86 -/

/-- **C86** (partial) A JSON text is read as the data that it says: arrays, objects with their members in order, strings, truth values, null, and
numbers, which are integers if they are written as integers of 64 bits and floats otherwise.  Partial: the members of an object have
different names, and none has one of the two words of the dialect (`Says.obj`), see `C86_type_violated` and `C86_ref_violated`. -/
theorem C86_data_partial (D : Decoder) (E : JEnv) (ts : List JTok) (t : T) (bs : Str) (h : Says E D.dialect ts t) (hs : Spells false ts bs) :
    ∃ F h' r', (∀ fuel, F ≤ fuel → unmarshalBytes D E fuel bs = .ok (h', r')) ∧ Is h' r' t := by
  obtain ⟨e, F, h1, h2⟩ := says_read h
  obtain ⟨c', r, h3, _, h4⟩ := h2 D rfl Coll.empty
  refine ⟨F, c'.heap, r, fun fuel hf => ?_, h4⟩
  rw [unmarshalBytes_text (says_val h) hs]
  have := h1 fuel hf none [] (.inl rfl)
  rw [List.append_nil] at this
  simp only [unmarshal, this, h3 fuel, Out.map]

/-- `{"a": -0 , "b":[]}`; `-0` is an integer. -/
example : ∃ F h' r', (∀ fuel, F ≤ fuel → unmarshalBytes exDecoder exEnv fuel (txt "{\"a\": -0 , \"b\":[]}") = .ok (h', r')) ∧
    Is h' r' (.map [(.str [97], .int 0), (.str [98], .arr [])]) := by
  have hd : ∀ c : Nat, c = 97 ∨ c = 98 → CharText false c [UInt8.ofNat c] := by
    rintro c (rfl | rfl)
    · exact .unescaped 97 (by decide) (by decide) (by decide) (by decide)
    · exact .unescaped 98 (by decide) (by decide) (by decide) (by decide)
  have h0 : Digits1 [48] := ⟨by simp, by intro b hb; simp only [List.mem_singleton] at hb; subst hb; unfold IsDigit; decide⟩
  have hz : NumText [45, 48] := ⟨[45], [48], [], [], rfl, .inr rfl, .inl rfl, .inl rfl, .inl rfl⟩
  refine C86_data_partial exDecoder exEnv ([.lbrace] ++ ([.str [97], .colon] ++ [.num [45, 48]] ++ [.comma] ++ ([.str [98], .colon] ++ [.lbrack, .rbrack])) ++ [.rbrace])
    _ _ (.obj _ [([97], .int 0), ([98], .arr [])] (.more [97] _ _ _ _ (.num _ _ hz (.inl ⟨0, ⟨[48], h0, .inr ⟨rfl, rfl⟩⟩, by decide, by decide, rfl⟩))
      (.one [98] _ _ .arr0)) (by decide) (by decide)) ?_
  exact .tok _ _ _ _ .lbrace (.tok _ _ _ _ (.str [97] [97] (.cons 97 _ [] [] (hd 97 (.inl rfl)) .nil)) (.tok _ _ _ _ .colon (.blank 32 _ _ (.inl rfl)
    (.tok _ _ _ _ (.num _ hz) (.blank 32 _ _ (.inl rfl) (.tok _ _ _ _ .comma (.blank 32 _ _ (.inl rfl) (.tok _ _ _ _ (.str [98] [98] (.cons 98 _ [] [] (hd 98 (.inr rfl)) .nil))
      (.tok _ _ _ _ .colon (.tok _ _ _ _ .lbrack (.tok _ _ _ _ .rbrack (.tok _ _ _ _ .rbrace .nil))))))))))))

/-- **C86** does not hold for an object with a member `__type`: it is read as a type, or not at all. -/
theorem C86_type_violated : readBytes exDecoder exEnv (txt "{\"__type\":\"int\"}") = some (.typ (txt "int"))
    ∧ readBytes exDecoder exEnv (txt "{\"__type\":\"file\",\"a\":1}") = none := ⟨same_some (by decide +kernel), by decide +kernel⟩

/-- **C86** does not hold for an object whose first member is `__ref`: it is read as another part of the text, or not at all. -/
theorem C86_ref_violated : readBytes exDecoder exEnv (txt "[[],{\"__ref\":1}]") = some (.arr [.arr [], .arr []])
    ∧ (unmarshalBytes exDecoder exEnv 40 (txt "{\"__ref\":9}") matches .panic) := ⟨same_some (by decide +kernel), by decide +kernel⟩

/-- **C86** An integer that does not have 64 bits is not read as that integer: it becomes a float. -/
theorem C86_big_violated : readBytes exDecoder exEnv (txt "9223372036854775808") = some (.float (exEnv.parseFloat (txt "9223372036854775808"))) :=
  same_some (by decide +kernel)

end Verif.Stream
