import Verif.Text.Utf8
/-!
# util.StringReader
-/
set_option autoImplicit false
set_option linter.unusedVariables false
namespace Verif.Text
open Verif.Value (Str runeLen)

/-- `StringReader`: util/reader.go:9-14. -/
structure Reader where
  p : Nat
  l : Nat
  c : Nat
  s : Str

/-- `NewStringReader`: reader.go:17-19. -/
def newReader (s : Str) : Reader := { p := 0, l := 0, c := 0, s := s }

namespace Reader

/-- `Next`: reader.go:22-49; `none`: it panics (lines 42-44). -/
def next (r : Reader) : Option (Nat × Reader) :=
  match r.s.drop r.p with
  | [] =>
    -- lines 23-28
    if r.p = r.s.length then some (0, { r with p := r.p + 1, c := r.c + 1 }) else some (0, r)
  | b :: t =>
    if b.toNat < 0x80 then
      -- lines 31-36
      if b.toNat = 10 then some (10, { r with p := r.p + 1, l := r.l + 1, c := 0 + 1 })
      else some (b.toNat, { r with p := r.p + 1, c := r.c + 1 })
    else
      -- lines 38-46
      if decode (b :: t) = runeError then none
      else some (decode (b :: t), { r with p := r.p + runeLen (b :: t), c := r.c + 1 })

/-- `Peek`: reader.go:52-64. -/
def peek (r : Reader) : Option Nat :=
  match r.s.drop r.p with
  | [] => some 0
  | b :: t => if b.toNat < 0x80 then some b.toNat else if decode (b :: t) = runeError then none else some (decode (b :: t))

/-- `Peek2`: reader.go:67-94. -/
def peek2 (r : Reader) : Option Nat :=
  match r.s.drop r.p with
  | [] => some 0
  | b :: t =>
    let second (np : Nat) : Option Nat :=
      match r.s.drop np with
      | [] => some 0
      | b :: t => if b.toNat < 0x80 then some b.toNat else if decode (b :: t) = runeError then none else some (decode (b :: t))
    if b.toNat < 0x80 then second (r.p + 1)
    else if decode (b :: t) = runeError then none else second (r.p + runeLen (b :: t))

/-- `Column`: reader.go:97-99. -/
def column (r : Reader) : Nat := r.c + 1

/-- `Line`: reader.go:102-104. -/
def line (r : Reader) : Nat := r.l + 1

/-- `Rewind`: reader.go:112-116. -/
def rewind (r : Reader) : Reader := { r with p := 0, l := 0, c := 0 }

end Reader

/-! ## The runes that are left -/

/-- The runes of a text; `none`: the text is malformed here (or has the character U+FFFD), and reading panics. -/
def runes (s : Str) : List (Option Nat) :=
  match s with
  | [] => []
  | b :: t =>
    if b.toNat < 0x80 then some b.toNat :: runes t
    else if decode (b :: t) = runeError then [none]
    else some (decode (b :: t)) :: runes ((b :: t).drop (runeLen (b :: t)))
termination_by s.length
decreasing_by
  · simp
  · simp only [List.length_drop]
    have := runeLen_cons b t
    simp at *; omega

abbrev In := List (Option Nat)

/-- `Next`, `Peek` and `Peek2` on the runes that are left -/
def In.next : In → Option (Nat × In)
  | [] => some (0, [])
  | none :: _ => none
  | some c :: t => some (c, t)

def In.peek : In → Option Nat
  | [] => some 0
  | none :: _ => none
  | some c :: _ => some c

def In.peek2 : In → Option Nat
  | [] => some 0
  | none :: _ => none
  | some _ :: t => In.peek t

/-- What is left to read -/
def Reader.left (r : Reader) : In := runes (r.s.drop r.p)

theorem runes_cons (b : UInt8) (t : Str) : runes (b :: t) =
    if b.toNat < 0x80 then some b.toNat :: runes t
    else if decode (b :: t) = runeError then [none]
    else some (decode (b :: t)) :: runes ((b :: t).drop (runeLen (b :: t))) := by
  rw [runes]

theorem runes_nil : runes [] = [] := by rw [runes]

theorem drop_next {s : Str} {p : Nat} {b : UInt8} {t : Str} (h : s.drop p = b :: t) (n : Nat) :
    s.drop (p + n) = (b :: t).drop n := by
  rw [← h, List.drop_drop]

/-- `Next` yields the next rune. -/
theorem next_left (r : Reader) : (Reader.next r).map (fun x => (x.1, x.2.left)) = r.left.next := by
  unfold Reader.next Reader.left
  cases h : r.s.drop r.p with
  | nil =>
    dsimp only
    rw [runes_nil]
    have hl : r.s.length ≤ r.p := List.drop_eq_nil_iff.1 h
    split
    · simp only [Option.map_some, In.next]
      rw [List.drop_eq_nil_of_le (by omega), runes_nil]
    · simp only [Option.map_some, In.next, h, runes_nil]
  | cons b t =>
    dsimp only
    rw [runes_cons]
    split
    · split
      · rename_i h10
        simp only [Option.map_some, In.next, drop_next h 1, h10]; rfl
      · simp only [Option.map_some, In.next, drop_next h 1]; rfl
    · split
      · rfl
      · simp only [Option.map_some, In.next, drop_next h]

/-- `Peek` tells the next rune. -/
theorem peek_left (r : Reader) : r.peek = r.left.peek := by
  unfold Reader.peek Reader.left
  cases h : r.s.drop r.p with
  | nil => rw [runes_nil]; rfl
  | cons b t => dsimp only; rw [runes_cons]; (repeat' split) <;> rfl

theorem peek_drop (s : Str) (p : Nat) : (match s.drop p with
    | [] => some 0
    | b :: t => if b.toNat < 0x80 then some b.toNat else if decode (b :: t) = runeError then none else some (decode (b :: t))) =
    In.peek (runes (s.drop p)) := peek_left ⟨p, 0, 0, s⟩

/-- `Peek2` tells the rune after the next. -/
theorem peek2_left (r : Reader) : r.peek2 = r.left.peek2 := by
  unfold Reader.peek2 Reader.left
  cases h : r.s.drop r.p with
  | nil => rw [runes_nil]; rfl
  | cons b t =>
    dsimp only
    rw [runes_cons]
    split
    · rw [peek_drop, drop_next h 1]; rfl
    · split
      · rfl
      · rw [peek_drop, drop_next h]; rfl

/-! ## Text -/

/-- The text of a list of characters -/
def textOf (cs : List Nat) : Str := cs.flatMap encode

/-- A character that can be read: any Unicode character but U+FFFD -/
def Readable (c : Nat) : Prop := Scalar c ∧ c ≠ runeError

instance (c : Nat) : Decidable (Readable c) := by unfold Readable; infer_instance

theorem encode_ne_nil (c : Nat) : encode c ≠ [] := by unfold encode; (repeat' split) <;> simp

theorem encode_ascii {c : Nat} (h : c < 0x80) : encode c = [UInt8.ofNat c] := by unfold encode; rw [if_pos h]

theorem encode_head {c : Nat} (hc : Scalar c) {b : UInt8} {t r : Str} (h : encode c ++ r = b :: t) : b.toNat < 0x80 ↔ c < 0x80 := by
  by_cases h1 : c < 0x80
  · rw [encode_ascii h1] at h
    cases h
    rw [u8_ofNat (by omega)]
  · refine ⟨fun hb => ?_, fun h => absurd h h1⟩
    exfalso
    have := (decode_encode hc r).1
    rw [h] at this
    unfold decode at this
    have hl : runeLen (b :: t) = 1 := by
      unfold runeLen; dsimp only; rw [if_pos (by omega)]
    rw [hl] at this
    simp only [hb, if_true] at this
    omega

theorem runes_encode {c : Nat} (hc : Readable c) (r : Str) : runes (encode c ++ r) = some c :: runes r := by
  cases h : encode c ++ r with
  | nil => exact absurd (List.append_eq_nil_iff.1 h).1 (encode_ne_nil c)
  | cons b t =>
    have hd := decode_encode hc.1 r
    have hb := encode_head hc.1 h
    rw [runes_cons]
    by_cases h1 : b.toNat < 0x80
    · rw [if_pos h1]
      rw [encode_ascii (hb.1 h1)] at h
      cases h
      have := hb.1 h1
      rw [u8_ofNat (by omega)]
      rfl
    · rw [if_neg h1, ← h, hd.1, if_neg hc.2, hd.2]
      simp

/-- The runes of a text are its characters. -/
theorem runes_textOf {cs : List Nat} (h : ∀ c ∈ cs, Readable c) (r : Str) : runes (textOf cs ++ r) = cs.map some ++ runes r := by
  induction cs with
  | nil => rfl
  | cons c cs ih =>
    rw [textOf, List.flatMap_cons, List.append_assoc, runes_encode (h c List.mem_cons_self)]
    have := ih fun c hc => h c (List.mem_cons_of_mem _ hc)
    rw [textOf] at this
    rw [this]; rfl

theorem runes_text {cs : List Nat} (h : ∀ c ∈ cs, Readable c) : runes (textOf cs) = cs.map some := by
  have := runes_textOf h []
  rwa [List.append_nil, runes_nil, List.append_nil] at this

/-- Every text is made of readable characters up to the place where reading panics. -/
theorem runes_split (s : Str) : ∃ cs r, (∀ c ∈ cs, Readable c) ∧ s = textOf cs ++ r ∧
    ((r = [] ∧ runes s = cs.map some) ∨ (r ≠ [] ∧ decode r = runeError ∧ runes s = cs.map some ++ [none])) := by
  induction hn : s.length using Nat.strongRecOn generalizing s with
  | ind n ih =>
    subst hn
    cases s with
    | nil => exact ⟨[], [], by simp, rfl, Or.inl ⟨rfl, by rw [runes_nil]; rfl⟩⟩
    | cons b t =>
      have hr := runes_cons b t
      by_cases hb : b.toNat < 0x80
      · rw [if_pos hb] at hr
        obtain ⟨cs, r, h1, h2, h3⟩ := ih t.length (by simp) t rfl
        refine ⟨b.toNat :: cs, r, ?_, ?_, ?_⟩
        · intro c hc
          rcases List.mem_cons.1 hc with rfl | hc
          · refine ⟨Or.inl (by omega), ?_⟩; unfold runeError; omega
          · exact h1 c hc
        · rw [textOf, List.flatMap_cons, encode_ascii hb, u8_ext rfl, h2]; rfl
        · rw [hr]
          rcases h3 with ⟨h3, h4⟩ | ⟨h3, h4, h5⟩
          · exact Or.inl ⟨h3, by rw [h4]; rfl⟩
          · exact Or.inr ⟨h3, h4, by rw [h5]; rfl⟩
      · rw [if_neg hb] at hr
        by_cases hd : decode (b :: t) = runeError
        · rw [if_pos hd] at hr
          exact ⟨[], b :: t, by simp, rfl, Or.inr ⟨by simp, hd, hr⟩⟩
        · rw [if_neg hd] at hr
          have hl := runeLen_cons b t
          obtain ⟨cs, r, h1, h2, h3⟩ := ih ((b :: t).drop (runeLen (b :: t))).length (by rw [List.length_drop]; omega) _ rfl
          have he := encode_decode (s := b :: t) (by simp) (Or.inl hd)
          refine ⟨decode (b :: t) :: cs, r, ?_, ?_, ?_⟩
          · intro c hc
            rcases List.mem_cons.1 hc with rfl | hc
            · exact ⟨he.1, hd⟩
            · exact h1 c hc
          · rw [textOf, List.flatMap_cons, he.2, List.append_assoc]
            unfold textOf at h2
            rw [← h2, List.take_append_drop]
          · rw [hr]
            rcases h3 with ⟨h3, h4⟩ | ⟨h3, h4, h5⟩
            · exact Or.inl ⟨h3, by rw [h4]; rfl⟩
            · exact Or.inr ⟨h3, h4, by rw [h5]; rfl⟩

end Verif.Text
