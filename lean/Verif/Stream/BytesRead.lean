import Verif.Stream.Bytes
import Verif.Stream.BytesSpec
/-!
# Lemmas: reading a JSON text
-/
set_option autoImplicit false
set_option linter.unusedVariables false
set_option linter.unusedSimpArgs false
namespace Verif.Stream
open Verif.Value (Str runeLen)
open Verif.Text (encode Scalar decode_encode)

/-! ## Strings -/

theorem hexVal_of {b : UInt8} {v : Nat} (h : HexOf b v) : hexVal b = some v := by
  unfold HexOf at h
  unfold hexVal
  dsimp only
  rcases h with h | h | h
  · rw [if_pos (by omega)]; congr 1; omega
  · rw [if_neg (by omega), if_pos (by omega)]; congr 1; omega
  · rw [if_neg (by omega), if_neg (by omega), if_pos (by omega)]; congr 1; omega

theorem hex4_of {n : Nat} {t : Str} (h : Hex4 n t) : ∃ a b c d, t = [a, b, c, d] ∧ hex4 a b c d = some n := by
  obtain ⟨a, b, c, d, x, y, z, w, rfl, ha, hb, hc, hd, rfl⟩ := h
  refine ⟨a, b, c, d, rfl, ?_⟩
  simp only [hex4, hexVal_of ha, hexVal_of hb, hexVal_of hc, hexVal_of hd]

theorem encode_head {c : Nat} (h : 0x20 ≤ c) (hq : c ≠ 34) (hb : c ≠ 92) :
    ∃ b r, encode c = b :: r ∧ b ≠ 34 ∧ b ≠ 92 ∧ ¬b.toNat < 0x20 := by
  have key : ∀ n : Nat, n < 256 → n ≠ 34 → n ≠ 92 → 0x20 ≤ n →
      UInt8.ofNat n ≠ 34 ∧ UInt8.ofNat n ≠ 92 ∧ ¬(UInt8.ofNat n).toNat < 0x20 := by
    intro n h1 h2 h3 h4
    have e := Text.u8_ofNat h1
    refine ⟨?_, ?_, by omega⟩
    · intro hx; rw [hx] at e; exact h2 (by rw [← e]; rfl)
    · intro hx; rw [hx] at e; exact h3 (by rw [← e]; rfl)
  unfold encode
  split
  · exact ⟨_, _, rfl, key c (by omega) hq hb h⟩
  · split
    · exact ⟨_, _, rfl, key _ (by omega) (by omega) (by omega) (by omega)⟩
    · split
      · exact ⟨_, _, rfl, key _ (by omega) (by omega) (by omega) (by omega)⟩
      · split
        · exact ⟨_, _, rfl, key _ (by omega) (by omega) (by omega) (by omega)⟩
        · exact ⟨_, _, rfl, by decide, by decide, by decide⟩

/-- One character -/
theorem unquote_char {c : Nat} {t : Str} (h : CharText false c t) (n : Nat) (r : Str) :
    unquote (n + 1) (t ++ r) = (unquote n r).map fun q => (encode c ++ q.1, q.2) := by
  cases h with
  | unescaped _ hc h hq hb =>
    obtain ⟨b, e, he, h1, h2, h3⟩ := encode_head h hq hb
    obtain ⟨hd, hl⟩ := decode_encode hc r
    have hdrop : (encode c ++ r).drop (runeLen (encode c ++ r)) = r := by rw [hl]; simp
    rw [he] at hd hdrop ⊢
    rw [List.cons_append] at hd hdrop ⊢
    rw [unquote.eq_def]
    dsimp only
    rw [if_neg h1, if_neg h2, if_neg h3, hdrop, hd, he]
  | escape b _ h =>
    simp only [List.mem_cons, Prod.mk.injEq, List.not_mem_nil, or_false] at h
    rcases h with ⟨rfl, rfl⟩ | ⟨rfl, rfl⟩ | ⟨rfl, rfl⟩ | ⟨rfl, rfl⟩ | ⟨rfl, rfl⟩ | ⟨rfl, rfl⟩ | ⟨rfl, rfl⟩ | ⟨rfl, rfl⟩ <;> rfl
  | unicode _ t hc h =>
    obtain ⟨x, y, z, w, rfl, hx⟩ := hex4_of h
    unfold Scalar at hc
    simp only [List.cons_append, List.nil_append]
    rw [unquote.eq_def]
    dsimp only
    rw [if_neg (by decide), if_pos rfl, if_pos rfl, hx]
    dsimp only
    rw [if_neg (by omega)]
  | surrogates hi lo t t' hh hl h h' =>
    obtain ⟨x, y, z, w, rfl, hx⟩ := hex4_of h
    obtain ⟨x', y', z', w', rfl, hx'⟩ := hex4_of h'
    simp only [List.cons_append, List.nil_append]
    rw [unquote.eq_def]
    dsimp only
    rw [if_neg (by decide), if_pos rfl, if_pos rfl, hx]
    dsimp only
    rw [if_pos hh]
    simp only [lowSurrogate, hx', if_pos hl]
  | byte _ hl => cases hl
  | half _ _ hl => cases hl

theorem charText_length {c : Nat} {t : Str} (h : CharText false c t) : 1 ≤ t.length := by
  cases h with
  | unescaped _ hc h hq hb =>
    obtain ⟨b, e, he, _⟩ := encode_head h hq hb
    rw [he]; simp
  | byte _ hl => cases hl
  | half _ _ hl => cases hl
  | _ => simp

theorem unquote_text {s t : Str} (h : StrText false s t) : ∀ (n : Nat) (r : Str), t.length + 1 ≤ n → unquote n (t ++ 34 :: r) = some (s, r) := by
  induction h with
  | nil =>
    intro n r hn
    match n, hn with
    | n + 1, _ => simp [unquote]
  | cons c t s t' h h' ih =>
    intro n r hn
    have hl := charText_length h
    simp only [List.length_append] at hn
    match n, hn with
    | n + 1, hn =>
      rw [List.append_assoc, unquote_char h, ih n r (by omega)]
      rfl

/-! ## Numbers -/

theorem isDigit_iff {b : UInt8} : isDigit b = true ↔ IsDigit b := by
  simp [isDigit, IsDigit]

/-- What follows a number is not read as a part of it. -/
def EndsNumber (r : Str) : Prop := ∀ b r', r = b :: r' → ¬IsDigit b ∧ b ≠ 46 ∧ b ≠ 101 ∧ b ≠ 69

theorem takeWhile_digits {ds r : Str} (h : ∀ b ∈ ds, IsDigit b) (hr : ∀ b r', r = b :: r' → ¬IsDigit b) :
    (ds ++ r).takeWhile isDigit = ds ∧ (ds ++ r).dropWhile isDigit = r := by
  induction ds with
  | nil =>
    cases r with
    | nil => simp
    | cons b r =>
      have : isDigit b = false := by
        have h1 := hr b r rfl
        cases hb : isDigit b with
        | false => rfl
        | true => exact absurd (isDigit_iff.mp hb) h1
      simp [this]
  | cons d ds ih =>
    have h1 := isDigit_iff.mpr (h d List.mem_cons_self)
    have h2 := ih fun b hb => h b (List.mem_cons_of_mem _ hb)
    simp [h1, h2.1, h2.2]

theorem digits1_of {ds r : Str} (h : Digits1 ds) (hr : ∀ b r', r = b :: r' → ¬IsDigit b) : digits1 (ds ++ r) = some (ds, r) := by
  obtain ⟨h1, h2⟩ := takeWhile_digits h.2 hr
  unfold digits1
  rw [h1, h2]
  cases ds with
  | nil => exact absurd rfl h.1
  | cons d ds => rfl

theorem intPart_of {i r : Str} (h : IntText i) (hr : ∀ b r', r = b :: r' → ¬IsDigit b) : intPart (i ++ r) = some (i, r) := by
  rcases h with rfl | ⟨b, ds, rfl, hb, hb0, hds⟩
  · rfl
  · have : Digits1 (b :: ds) := ⟨by simp, fun x hx => by
      rcases List.mem_cons.mp hx with rfl | hx
      · exact hb
      · exact hds x hx⟩
    have h1 := digits1_of this hr
    rw [List.cons_append] at h1 ⊢
    unfold intPart
    split
    · rename_i heq; cases heq; exact absurd rfl hb0
    · exact h1

/-- The frac and exp parts -/
theorem unsignedPart_of {i f e r : Str} (hi : IntText i) (hf : f = [] ∨ ∃ ds, Digits1 ds ∧ f = [46] ++ ds)
    (he : e = [] ∨ ∃ x g ds, Digits1 ds ∧ (x = 101 ∨ x = 69) ∧ (g = [] ∨ g = [43] ∨ g = [45]) ∧ e = [x] ++ g ++ ds) (hr : EndsNumber r) :
    unsignedPart (i ++ f ++ e ++ r) = some (i ++ f ++ e, r) := by
  have hexp : expPart (e ++ r) = some (e, r) := by
    rcases he with rfl | ⟨x, g, ds, hds, hx, hg, rfl⟩
    · cases r with
      | nil => rfl
      | cons b r =>
        have := hr b r rfl
        simp only [List.nil_append, expPart]
        rw [if_neg (by rintro (h | h); exact this.2.2.1 h; exact this.2.2.2 h)]
    · have hd := digits1_of hds (r := r) fun b r' h => (hr b r' h).1
      rcases hg with rfl | rfl | rfl
      · cases ds with
        | nil => exact absurd rfl hds.1
        | cons d ds =>
          have hdd := hds.2 d List.mem_cons_self
          unfold IsDigit at hdd
          simp only [List.cons_append, List.nil_append, expPart] at hd ⊢
          rw [if_pos hx, if_neg (by rintro (rfl | rfl) <;> revert hdd <;> decide), hd]
          rfl
      · simp only [List.cons_append, List.nil_append, expPart]
        rw [if_pos hx, if_pos (by decide), hd]; rfl
      · simp only [List.cons_append, List.nil_append, expPart]
        rw [if_pos hx, if_pos (by decide), hd]; rfl
  have hx0 : ∀ b r', e ++ r = b :: r' → ¬IsDigit b ∧ b ≠ 46 := by
    intro b r' h
    rcases he with rfl | ⟨x, g, ds, hds, hx, hg, rfl⟩
    · exact ⟨(hr b r' h).1, (hr b r' h).2.1⟩
    · simp only [List.cons_append, List.nil_append, List.cons.injEq] at h
      obtain ⟨rfl, _⟩ := h
      clear hexp
      rcases hx with rfl | rfl <;> (unfold IsDigit; decide)
  have hfr : fracPart (f ++ (e ++ r)) = some (f, e ++ r) := by
    rcases hf with rfl | ⟨ds, hds, rfl⟩
    · rw [List.nil_append]
      unfold fracPart
      split
      · rename_i r' h; exact absurd rfl (hx0 46 r' h).2
      · rfl
    · simp only [List.cons_append, List.nil_append, fracPart]
      rw [digits1_of hds fun b r' h => (hx0 b r' h).1]
      rfl
  have hf0 : ∀ b r', f ++ (e ++ r) = b :: r' → ¬IsDigit b := by
    intro b r' h
    rcases hf with rfl | ⟨ds, hds, rfl⟩
    · exact (hx0 b r' h).1
    · simp only [List.cons_append, List.nil_append, List.cons.injEq] at h
      obtain ⟨rfl, _⟩ := h
      unfold IsDigit; decide
  have hin := intPart_of hi hf0
  simp only [List.append_assoc] at hin ⊢
  simp only [unsignedPart, hin, hfr, hexp, List.append_assoc]

theorem intText_head {i : Str} (h : IntText i) : ∃ b r, i = b :: r ∧ IsDigit b := by
  rcases h with rfl | ⟨b, ds, rfl, hb, _⟩
  · exact ⟨48, [], rfl, by unfold IsDigit; decide⟩
  · exact ⟨b, ds, rfl, hb⟩

theorem number_of {t r : Str} (h : NumText t) (hr : EndsNumber r) : number (t ++ r) = some (t, r) := by
  obtain ⟨m, i, f, e, rfl, hm, hi, hf, he⟩ := h
  have hu := unsignedPart_of hi hf he hr
  rcases hm with rfl | rfl
  · obtain ⟨b, x, rfl, hb⟩ := intText_head hi
    simp only [List.nil_append, List.cons_append] at hu ⊢
    unfold number
    split
    · rename_i heq; cases heq; exact absurd hb (by unfold IsDigit; decide)
    · exact hu
  · simp only [List.append_assoc, List.cons_append, List.nil_append] at hu ⊢
    simp only [number, hu, Option.map_some]

theorem numText_head {t : Str} (h : NumText t) : ∃ b r, t = b :: r ∧ (b = 45 ∨ IsDigit b) := by
  obtain ⟨m, i, f, e, rfl, hm, hi, hf, he⟩ := h
  obtain ⟨b, x, rfl, hb⟩ := intText_head hi
  rcases hm with rfl | rfl
  · exact ⟨b, _, rfl, .inr hb⟩
  · exact ⟨45, _, rfl, .inl rfl⟩

/-! ## Tokens -/

def JTok.isNum : JTok → Bool
  | .num _ => true
  | _ => false

theorem isSpace_iff {b : UInt8} : isSpace b = true ↔ Blank b := by
  simp [isSpace, Blank, or_assoc]

theorem lexTok_blank {b : UInt8} (h : Blank b) (s : Str) : lexTok (b :: s) = lexTok s := by
  unfold lexTok
  rw [List.dropWhile_cons, if_pos (isSpace_iff.mpr h)]

theorem dropWhile_notBlank {b : UInt8} (h : ¬Blank b) (s : Str) : (b :: s).dropWhile isSpace = b :: s := by
  rw [List.dropWhile_cons, if_neg (fun h' => h (isSpace_iff.mp h'))]

theorem lexTok_num {t r : Str} (h : NumText t) (hr : EndsNumber r) : lexTok (t ++ r) = some (.num t, r) := by
  have hn := number_of h hr
  obtain ⟨b, x, rfl, hb⟩ := numText_head h
  rw [List.cons_append] at hn ⊢
  have hb' : b.toNat = 45 ∨ (48 ≤ b.toNat ∧ b.toNat ≤ 57) := hb.imp (fun h => by rw [h]; rfl) id
  have hnb : ¬Blank b := by
    rintro (rfl | rfl | rfl | rfl) <;> revert hb' <;> decide
  unfold lexTok
  rw [dropWhile_notBlank hnb]
  split
  all_goals first
    | (rename_i heq; cases heq; exact absurd hb' (by decide))
    | (rename_i heq; injection heq with h1 h2; subst h1; exact absurd hb' (by decide))
    | (rename_i heq; cases heq; done)
    | (rw [hn]; rfl)

theorem lexTok_of {t : JTok} {x : Str} (h : TokText false t x) (r : Str) (hr : t.isNum = true → EndsNumber r) : lexTok (x ++ r) = some (t, r) := by
  cases h with
  | num _ h => exact lexTok_num h (hr rfl)
  | str s t h =>
    have : lexTok ([34] ++ t ++ [34] ++ r) = (unquote ((t ++ 34 :: r).length + 1) (t ++ 34 :: r)).map fun q => (.str q.1, q.2) := by
      simp only [List.append_assoc, List.cons_append, List.nil_append]
      rfl
    rw [this, unquote_text h _ _ (by simp)]
    rfl
  | _ => rfl

/-- Tokens read one after the other -/
inductive Lexes : Str → List JTok → Str → Prop
  | nil (s : Str) : Lexes s [] s
  | cons {s s' r : Str} {t : JTok} {ts : List JTok} (h : lexTok s = some (t, s')) (h' : Lexes s' ts r) : Lexes s (t :: ts) r

theorem lexes_nil {s r : Str} (h : Lexes s [] r) : s = r := by
  cases h; rfl

theorem lexes_cons {s r : Str} {t : JTok} {ts : List JTok} (h : Lexes s (t :: ts) r) : ∃ s', lexTok s = some (t, s') ∧ Lexes s' ts r := by
  cases h with
  | cons h h' => exact ⟨_, h, h'⟩

/-- No two numbers follow each other. -/
def Apart : List JTok → Prop
  | [] => True
  | [_] => True
  | a :: b :: r => ¬(a.isNum = true ∧ b.isNum = true) ∧ Apart (b :: r)

theorem apart_mid {p : JTok} (hp : p.isNum = false) : ∀ {a b : List JTok}, Apart a → Apart b → Apart (a ++ [p] ++ b)
  | [], [], _, _ => trivial
  | [], y :: b, _, hb => ⟨by simp [hp], hb⟩
  | [x], b, _, hb => ⟨by simp [hp], apart_mid hp (a := []) trivial hb⟩
  | x :: y :: a, b, ha, hb => ⟨ha.1, apart_mid hp (a := y :: a) ha.2 hb⟩

mutual
theorem val_apart : ∀ {ts : List JTok}, JVal ts → Apart ts
  | _, .scalar t h => trivial
  | _, .arr0 => ⟨by decide, trivial⟩
  | _, .arr ts h => by
    have := apart_mid (p := .lbrack) rfl (a := []) trivial (apart_mid (p := .rbrack) rfl (elems_apart h) (b := []) trivial)
    simpa using this
  | _, .obj0 => ⟨by decide, trivial⟩
  | _, .obj ts h => by
    have := apart_mid (p := .lbrace) rfl (a := []) trivial (apart_mid (p := .rbrace) rfl (members_apart h) (b := []) trivial)
    simpa using this
theorem elems_apart : ∀ {ts : List JTok}, JElems ts → Apart ts
  | _, .one v h => val_apart h
  | _, .more ts v h hv => apart_mid rfl (elems_apart h) (val_apart hv)
theorem members_apart : ∀ {ts : List JTok}, JMembers ts → Apart ts
  | _, .one k v h => apart_mid (p := .colon) rfl (a := [.str k]) trivial (val_apart h)
  | _, .more ts k v h hv => by
    have := apart_mid (p := .comma) rfl (members_apart h) (apart_mid (p := .colon) rfl (a := [.str k]) trivial (val_apart hv))
    simpa using this
end

theorem tokText_head {t : JTok} {x : Str} (h : TokText false t x) (hn : t.isNum = false) (r : Str) : EndsNumber (x ++ r) := by
  cases h with
  | num _ h => simp [JTok.isNum] at hn
  | _ =>
    intro b r' e
    simp only [List.cons_append, List.nil_append, List.append_assoc, List.cons.injEq] at e
    obtain ⟨rfl, _⟩ := e
    unfold IsDigit
    decide

theorem blank_ends {b : UInt8} (h : Blank b) (r : Str) : EndsNumber (b :: r) := by
  intro c r' e
  cases e
  rcases h with rfl | rfl | rfl | rfl <;> (unfold IsDigit; decide)

theorem spells_ends {ts : List JTok} {bs : Str} (h : Spells false ts bs) (rest : Str) (hrest : EndsNumber rest)
    (ht : ∀ t r, ts = t :: r → t.isNum = false) : EndsNumber (bs ++ rest) := by
  cases h with
  | nil => exact hrest
  | blank b _ bs hb h => exact blank_ends hb _
  | tok t x ts bs hx h =>
    rw [List.append_assoc]
    exact tokText_head hx (ht t ts rfl) _

/-- A spelled text is read as its tokens; blanks at its end remain. -/
theorem spells_lexes {ts : List JTok} {bs : Str} (h : Spells false ts bs) (rest : Str) (hrest : EndsNumber rest) (ha : Apart ts) :
    ∃ w, (∀ b ∈ w, Blank b) ∧ Lexes (bs ++ rest) ts (w ++ rest) := by
  induction h with
  | nil => exact ⟨[], by simp, .nil _⟩
  | blank b ts bs hb h ih =>
    obtain ⟨w, hw, hl⟩ := ih ha
    cases ts with
    | nil =>
      have e := List.append_cancel_right (lexes_nil hl)
      refine ⟨b :: bs, ?_, .nil _⟩
      intro c hc
      rcases List.mem_cons.mp hc with rfl | hc
      · exact hb
      · exact hw c (by rwa [← e])
    | cons t ts =>
      obtain ⟨s', h1, h2⟩ := lexes_cons hl
      exact ⟨w, hw, .cons (by rw [List.cons_append, lexTok_blank hb]; exact h1) h2⟩
  | tok t x ts bs hx h ih =>
    have ha' : Apart ts := by
      cases ts with
      | nil => trivial
      | cons b r => exact ha.2
    obtain ⟨w, hw, hl⟩ := ih ha'
    refine ⟨w, hw, .cons ?_ hl⟩
    rw [List.append_assoc]
    refine lexTok_of hx _ fun hn => spells_ends h rest hrest ?_
    intro t' r e
    subst e
    cases hn' : t'.isNum with
    | false => rfl
    | true => exact absurd ⟨hn, hn'⟩ ha.1

end Verif.Stream
