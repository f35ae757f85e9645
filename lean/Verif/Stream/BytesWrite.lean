import Verif.Stream.Bytes
import Verif.Stream.BytesSpec
/-!
# Lemmas: the bytes written spell the tokens
-/
set_option autoImplicit false
set_option linter.unusedVariables false
set_option linter.unusedSimpArgs false
namespace Verif.Stream
open Verif.Value (Str runeLen)
open Verif.Text (encode Scalar)

theorem hexOf_digit {n : Nat} (h : n < 16) : HexOf (hexDigit n) n := by
  unfold hexDigit HexOf
  split
  · rw [Text.u8_ofNat (by omega)]; omega
  · rw [Text.u8_ofNat (by omega)]; omega

theorem runeLen_ascii {b : UInt8} {r : Str} (h : b.toNat < 0x80) : runeLen (b :: r) = 1 ∧ Text.decode (b :: r) = b.toNat := by
  have e : runeLen (b :: r) = 1 := by
    unfold runeLen
    dsimp only
    rw [if_pos (by omega)]
  refine ⟨e, ?_⟩
  unfold Text.decode
  simp only [e, if_pos h]

theorem encode_ascii {b : UInt8} (h : b.toNat < 0x80) : encode b.toNat = [b] := by
  unfold encode
  rw [if_pos h]
  congr 1
  exact UInt8.ofNat_toNat

theorem decode_ge {b : UInt8} {r : Str} (hb : ¬b.toNat < 0x80) (hsc : Scalar (Text.decode (b :: r)))
    (he : encode (Text.decode (b :: r)) = (b :: r).take (runeLen (b :: r))) : 0x80 ≤ Text.decode (b :: r) := by
  have hne := Text.runeLen_cons b r
  by_cases hd : Text.decode (b :: r) < 0x80
  · exfalso
    have e1 : encode (Text.decode (b :: r)) = [UInt8.ofNat (Text.decode (b :: r))] := by unfold encode; rw [if_pos hd]
    rw [e1] at he
    have hlen := congrArg List.length he
    rw [List.length_take] at hlen
    have hl1 : runeLen (b :: r) = 1 := by simp only [List.length_cons, List.length_nil] at hlen hne; omega
    rw [hl1] at he
    simp only [List.take_succ_cons, List.take_zero, List.cons.injEq, and_true] at he
    rw [← he, Text.u8_ofNat (by omega)] at hb
    omega
  · omega

/-- The first character of a string -/
theorem quoteRune_text (bf : Bool) (b : UInt8) (r : Str) : CharText false (Text.decode (b :: r)) (quoteRune bf (b :: r)) := by
  unfold quoteRune
  dsimp only
  split
  · rename_i hb
    rw [(runeLen_ascii hb).2]
    have hsc : Scalar b.toNat := .inl (by omega)
    split
    · rename_i h
      rcases h with rfl | rfl
      · exact .escape 34 34 (by decide)
      · exact .escape 92 92 (by decide)
    · rename_i h1
      split
      · rename_i h; subst h; exact .escape 110 10 (by decide)
      · split
        · rename_i h; subst h; exact .escape 114 13 (by decide)
        · split
          · rename_i h; subst h; exact .escape 116 9 (by decide)
          · split
            · rename_i h; obtain ⟨_, rfl⟩ := h; exact .escape 98 8 (by decide)
            · split
              · rename_i h; obtain ⟨_, rfl⟩ := h; exact .escape 102 12 (by decide)
              · split
                · refine .unicode b.toNat [48, 48, hexDigit (b.toNat / 16), hexDigit (b.toNat % 16)] hsc ?_
                  refine ⟨48, 48, _, _, 0, 0, b.toNat / 16, b.toNat % 16, rfl, ?_, ?_, hexOf_digit (by omega), hexOf_digit (by omega), by omega⟩
                  · exact .inl (by decide)
                  · exact .inl (by decide)
                · rename_i h
                  have e := encode_ascii hb
                  rw [← e]
                  refine .unescaped b.toNat hsc (by omega) ?_ ?_
                  · intro h'; exact h1 (.inl (UInt8.toNat_inj.mp h'))
                  · intro h'; exact h1 (.inr (UInt8.toNat_inj.mp h'))
  · rename_i hb
    split
    · rename_i h
      rw [h.1]
      refine .unicode 0xFFFD [102, 102, 102, 100] (.inr (by decide)) ?_
      exact ⟨102, 102, 102, 100, 15, 15, 15, 13, rfl, .inr (.inl (by decide)), .inr (.inl (by decide)), .inr (.inl (by decide)), .inr (.inl (by decide)), rfl⟩
    · rename_i h
      have h' : Text.decode (b :: r) ≠ Text.runeError ∨ runeLen (b :: r) ≠ 1 := by
        by_cases h1 : Text.decode (b :: r) = Text.runeError
        · exact .inr fun h2 => h ⟨h1, h2⟩
        · exact .inl h1
      obtain ⟨hsc, he⟩ := Text.encode_decode (List.cons_ne_nil b r) h'
      split
      · rename_i h2
        refine .unicode _ [50, 48, 50, hexDigit (Text.decode (b :: r) % 16)] hsc ?_
        refine ⟨50, 48, 50, _, 2, 0, 2, Text.decode (b :: r) % 16, rfl, .inl (by decide), .inl (by decide), .inl (by decide), hexOf_digit (by omega), by omega⟩
      · rw [← he]
        have key := decode_ge hb hsc he
        exact .unescaped _ hsc (by omega) (by omega) (by omega)

theorem quoteBody_text (bf : Bool) (s : Str) : StrText false (repair s) (quoteBody bf s) := by
  fun_induction quoteBody bf s with
  | case1 => rw [repair]; exact .nil
  | case2 b r ih => rw [repair]; exact .cons _ _ _ _ (quoteRune_text bf b r) ih

theorem quoteJson_text (bf : Bool) (s : Str) : TokText false (.str (repair s)) (quoteJson bf s) := .str _ _ (quoteBody_text bf s)

/-! ## Numbers -/

theorem digits_text (n : Nat) : IntText (Text.digits n) := by
  have hd : ∀ b ∈ Text.digits n, IsDigit b := fun b hb => by
    have := Text.digits_dig n b hb
    exact this
  obtain ⟨b, t, e, hb, h0⟩ := Text.digits_head n
  rw [e] at hd ⊢
  by_cases h : b = 48
  · subst h
    rw [(h0 rfl).2]
    exact .inl rfl
  · exact .inr ⟨b, t, rfl, hd b List.mem_cons_self, h, fun d hd' => hd d (List.mem_cons_of_mem _ hd')⟩

theorem formatInt_text (i : Int) : NumText (Text.formatInt i) := by
  unfold Text.formatInt
  split
  · exact ⟨[45], Text.digits i.natAbs, [], [], by simp, .inr rfl, digits_text _, .inl rfl, .inl rfl⟩
  · exact ⟨[], Text.digits i.natAbs, [], [], by simp, .inl rfl, digits_text _, .inl rfl, .inl rfl⟩

/-! ## The calls -/

/-- Both panic, or both write the same and are in the same state. -/
def Agree : Option (Str × JState) → Option (List JTok × JState) → Prop
  | none, none => True
  | some x, some y => Spells false y.1 x.1 ∧ x.2 = y.2
  | _, _ => False

theorem spells_append {l : Bool} {a b : List JTok} {x y : Str} (h : Spells l a x) (h' : Spells l b y) : Spells l (a ++ b) (x ++ y) := by
  induction h with
  | nil => exact h'
  | blank c ts bs hb h ih => exact .blank c _ _ hb ih
  | tok t z ts bs hx h ih => rw [List.append_assoc]; exact .tok t z _ _ hx ih

theorem spells_one {l : Bool} {t : JTok} {x : Str} (h : TokText l t x) : Spells l [t] x := by
  have := Spells.tok t x [] [] h .nil
  rwa [List.append_nil] at this

theorem agree_delimit {st : JState} {f : JState → Option (Str × JState)} {g : JState → Option (List JTok × JState)} (h : ∀ st, Agree (f st) (g st)) :
    Agree (bdelimit st f) (delimit st g) := by
  cases st <;> simp only [bdelimit, delimit]
  all_goals
    have := h
    first
      | (have h1 := h .firstInArray; revert h1; cases f .firstInArray <;> cases g .firstInArray <;> intro h1 <;>
          first | trivial | exact h1.elim | exact ⟨h1.1, rfl⟩)
      | skip
  · have h1 := h .firstInObject
    revert h1
    cases f .firstInObject <;> cases g .firstInObject <;> intro h1
    · trivial
    · exact h1.elim
    · exact h1.elim
    · exact ⟨h1.1, rfl⟩
  · have h1 := h .afterElement
    revert h1
    cases f .afterElement <;> cases g .afterElement <;> intro h1
    · trivial
    · exact h1.elim
    · exact h1.elim
    · exact ⟨.tok _ _ _ _ .comma h1.1, h1.2⟩
  · have h1 := h .afterValue
    revert h1
    cases f .afterValue <;> cases g .afterValue <;> intro h1
    · trivial
    · exact h1.elim
    · exact h1.elim
    · exact ⟨.tok _ _ _ _ .comma h1.1, rfl⟩
  · have h1 := h .afterKey
    revert h1
    cases f .afterKey <;> cases g .afterKey <;> intro h1
    · trivial
    · exact h1.elim
    · exact h1.elim
    · exact ⟨.tok _ _ _ _ .colon h1.1, rfl⟩

theorem ref_text (n : Int) : Spells false [.lbrace, .str dgoDialect.refKey, .colon, .num (Text.formatInt n), .rbrace]
    ([123, 34] ++ dgoDialect.refKey ++ [34, 58] ++ Text.formatInt n ++ [125]) := by
  have hk : TokText false (.str dgoDialect.refKey) ([34] ++ dgoDialect.refKey ++ [34]) := by
    have := quoteJson_text false dgoDialect.refKey
    have e : repair dgoDialect.refKey = dgoDialect.refKey := by decide +kernel
    have e' : quoteJson false dgoDialect.refKey = [34] ++ dgoDialect.refKey ++ [34] := by decide +kernel
    rwa [e, e'] at this
  have := Spells.tok _ _ _ _ .lbrace (.tok _ _ _ _ hk (.tok _ _ _ _ .colon (.tok _ _ _ _ (.num _ (formatInt_text n)) (.tok _ _ _ _ .rbrace .nil))))
  simpa using this

theorem bwrite_text {E : JEnv} (hE : FloatsAreNumbers E) (bf : Bool) (st : JState) (a : Atom) :
    Agree ((bwrite E bf a).map fun t => (t, st)) ((jwrite E a).map fun t => ([t], st)) := by
  cases a with
  | nil => exact ⟨spells_one .null, rfl⟩
  | bool b => cases b; exact ⟨spells_one .false, rfl⟩; exact ⟨spells_one .true, rfl⟩
  | int i => exact ⟨spells_one (.num _ (formatInt_text _)), rfl⟩
  | float f =>
    simp only [bwrite, jwrite]
    cases h : E.floatText f with
    | none => trivial
    | some x => exact ⟨spells_one (.num _ (hE f x h)), rfl⟩
  | str s => exact ⟨spells_one (quoteJson_text bf s), rfl⟩

theorem agree_wrap {x : Option (Str × JState)} {y : Option (List JTok × JState)} (h : Agree x y) {l r : JTok} {a b : UInt8}
    (hl : TokText false l [a]) (hr : TokText false r [b]) :
    Agree (x.map fun x => ([a] ++ x.1 ++ [b], JState.afterElement)) (y.map fun x => ([l] ++ x.1 ++ [r], JState.afterElement)) := by
  cases x <;> cases y <;> simp only [Option.map_some, Option.map_none] <;> try exact h.elim
  · trivial
  · exact ⟨spells_append (spells_append (spells_one hl) h.1) (spells_one hr), rfl⟩

mutual
theorem benc_text {E : JEnv} (hE : FloatsAreNumbers E) (bf : Bool) : ∀ (st : JState) (e : Ev), Agree (benc E bf st e) (jenc E st e)
  | st, .add a => by rw [benc, jenc]; exact agree_delimit fun st => bwrite_text hE bf st a
  | st, .addBin _ => by rw [benc, jenc]; exact agree_delimit fun st => ⟨spells_one .null, rfl⟩
  | st, .addTime _ => by rw [benc, jenc]; exact agree_delimit fun st => ⟨spells_one .null, rfl⟩
  | st, .ref n => by rw [benc, jenc]; exact agree_delimit fun st => ⟨ref_text n, rfl⟩
  | st, .arr es => by rw [benc, jenc]; exact agree_delimit fun st => agree_wrap (bencAll_text hE bf .firstInArray es) .lbrack .rbrack
  | st, .map es => by rw [benc, jenc]; exact agree_delimit fun st => agree_wrap (bencAll_text hE bf .firstInObject es) .lbrace .rbrace
theorem bencAll_text {E : JEnv} (hE : FloatsAreNumbers E) (bf : Bool) : ∀ (st : JState) (es : List Ev), Agree (bencAll E bf st es) (jencAll E st es)
  | st, [] => by rw [bencAll, jencAll]; exact ⟨.nil, rfl⟩
  | st, e :: es => by
    rw [bencAll, jencAll]
    have h1 := benc_text hE bf st e
    revert h1
    cases benc E bf st e <;> cases jenc E st e <;> intro h1
    · trivial
    · exact h1.elim
    · exact h1.elim
    · rename_i x y
      obtain ⟨h1, h2⟩ := h1
      dsimp only
      rw [h2]
      have h3 := bencAll_text hE bf y.2 es
      revert h3
      cases bencAll E bf y.2 es <;> cases jencAll E y.2 es <;> intro h3
      · trivial
      · exact h3.elim
      · exact h3.elim
      · exact ⟨spells_append h1 h3.1, h3.2⟩
end

/-- The bytes and the tokens that `MarshalJSON` writes -/
theorem marshalBytes_text {E : JEnv} (hE : FloatsAreNumbers E) (bf : Bool) (o : Options) (h : Heap) (fuel : Nat) (r : Ref) :
    (∀ bs, marshalBytes o E bf h fuel r = .ok bs → ∃ ts, marshal o E h fuel r = .ok ts ∧ Spells false ts bs) ∧
    (∀ ts, marshal o E h fuel r = .ok ts → ∃ bs, marshalBytes o E bf h fuel r = .ok bs ∧ Spells false ts bs) := by
  unfold marshalBytes marshal
  cases stream o jsonConsumer h fuel r with
  | panic => exact ⟨fun _ h => (nomatch h), fun _ h => (nomatch h)⟩
  | deep => exact ⟨fun _ h => (nomatch h), fun _ h => (nomatch h)⟩
  | ok e =>
    dsimp only
    have h1 := benc_text hE bf .firstInArray e
    revert h1
    cases benc E bf .firstInArray e <;> cases jenc E .firstInArray e <;> intro h1
    · exact ⟨fun _ h => (nomatch h), fun _ h => (nomatch h)⟩
    · exact h1.elim
    · exact h1.elim
    · exact ⟨fun _ h => by cases h; exact ⟨_, rfl, h1.1⟩, fun _ h => by cases h; exact ⟨_, rfl, h1.1⟩⟩

end Verif.Stream
