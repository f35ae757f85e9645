import Verif.Text.Parser
import Verif.Text.Props
/-!
# C36 (raw strings), C55, C57: what texts mean
-/
set_option autoImplicit false
set_option linter.unusedVariables false
namespace Verif.Text
open Verif.Value (Str)

/-! ### C36: raw strings -/

theorem raw_chars : ∀ (cs : List Nat) (buf rest : Str), (∀ c ∈ cs, Readable c ∧ c ≠ 96 ∧ c ≠ 0) →
    consumeRaw buf (runes (textOf cs ++ ([96] ++ rest))) = .ok (runes rest, buf ++ textOf cs)
  | [], buf, rest, _ => by
    show consumeRaw buf (runes (96 :: rest)) = _
    rw [runes_ascii (by decide), consumeRaw.eq_def]
    simp [textOf]
  | c :: cs, buf, rest, h => by
    have hc := h c List.mem_cons_self
    have ht : textOf (c :: cs) = encode c ++ textOf cs := rfl
    rw [ht, List.append_assoc, runes_encode hc.1, consumeRaw.eq_def]
    dsimp only
    rw [if_neg hc.2.1, if_neg hc.2.2, raw_chars cs _ rest fun c hc => h c (List.mem_cons_of_mem _ hc), List.append_assoc]

/-- **C36 (raw strings).**  Between backquotes stands the string itself, line breaks and backslashes included; it has no backquote and
no NUL. -/
theorem C36_raw (cs : List Nat) (rest : Str) (h : ∀ c ∈ cs, Readable c ∧ c ≠ 96 ∧ c ≠ 0) :
    nextToken (runes ([96] ++ textOf cs ++ [96] ++ rest)) = .ok (⟨textOf cs, tString⟩, runes rest) := by
  rw [List.append_assoc, List.append_assoc, List.cons_append, List.nil_append, runes_ascii (by decide), nextToken.eq_def]
  dsimp only
  rw [if_neg (by decide), if_neg (by decide), if_pos (by decide), raw_chars cs [] rest h]
  rfl

example : nextToken (runes ([96] ++ textOf [97, 92, 10, 233] ++ [96] ++ [93])) = .ok (⟨textOf [97, 92, 10, 233], tString⟩, runes [93]) :=
  C36_raw _ _ (by decide)

/-! ### C57: integer literals -/

/-- A text that is one integer token -/
theorem parse_integer {E : PEnv} {s v : Str} (h : nextToken (runes s) = .ok (⟨v, tInteger⟩, [])) :
    parse E s = .ok (.val (.int (tokenInt ⟨v, tInteger⟩))) := by
  have h1 : nextToken [] = .ok (⟨[], tEnd⟩, []) := rfl
  unfold parse
  rw [tokens_cons h (show tInteger ≠ tEnd by decide), tokens_end h1 rfl]
  rfl

/-- The character of a digit; `upper` is about the letters of hexadecimal digits. -/
def digitChar (d : Nat) (upper : Bool) : UInt8 := UInt8.ofNat (if d < 10 then 48 + d else if upper then 55 + d else 87 + d)

/-- The number that digits stand for -/
def numeral (base : Nat) (ds : List Nat) : Nat := ds.foldl (fun n d => n * base + d) 0

theorem digitVal_char {d : Nat} (h : d < 16) (u : Bool) : digitVal (digitChar d u) = some d := by
  have : ∀ d : Fin 16, ∀ u : Bool, digitVal (digitChar d u) = some d.1 := by decide
  exact this ⟨d, h⟩ u

theorem isHex_char {d : Nat} (h : d < 16) (u : Bool) : isHex (digitChar d u).toNat = true ∧ (digitChar d u).toNat < 128 := by
  have : ∀ d : Fin 16, ∀ u : Bool, isHex (digitChar d u).toNat = true ∧ (digitChar d u).toNat < 128 := by decide
  exact this ⟨d, h⟩ u

theorem dig_char {d : Nat} (h : d < 10) (u : Bool) : Dig (digitChar d u) ∧ ((digitChar d u).toNat = 48 → d = 0) := by
  have : ∀ d : Fin 10, ∀ u : Bool, (48 ≤ (digitChar d u).toNat ∧ (digitChar d u).toNat ≤ 57) ∧ ((digitChar d u).toNat = 48 → d.1 = 0) := by
    decide
  exact this ⟨d, h⟩ u

theorem parseDigits_chars {base : Nat} (hb : base ≤ 16) : ∀ (ds : List (Nat × Bool)) (acc : Nat), (∀ d ∈ ds, d.1 < base) →
    parseDigits base acc (ds.map fun d => digitChar d.1 d.2) = some ((ds.map (·.1)).foldl (fun n d => n * base + d) acc)
  | [], acc, _ => rfl
  | d :: ds, acc, h => by
    have hd := h d List.mem_cons_self
    rw [List.map_cons, parseDigits, digitVal_char (by omega)]
    dsimp only
    rw [if_pos hd, parseDigits_chars hb ds _ fun d hd => h d (List.mem_cons_of_mem _ hd)]
    rfl

theorem consumeHex_chars (ds : List (Nat × Bool)) (buf : Str) (h : ∀ d ∈ ds, d.1 < 16) :
    consumeHex buf (runes (ds.map fun d => digitChar d.1 d.2)) = .ok ([], buf ++ ds.map fun d => digitChar d.1 d.2) := by
  induction ds generalizing buf with
  | nil => simp [consumeHex, runes_nil]
  | cons d ds ih =>
    have hd := isHex_char (h d List.mem_cons_self) d.2
    rw [List.map_cons, runes_ascii hd.2, consumeHex, if_pos hd.1, ih _ fun d hd => h d (List.mem_cons_of_mem _ hd),
      encode_ascii hd.2, u8_ext rfl]
    simp

/-- What a sign writes -/
def signText (s : Option Bool) : Str := match s with | none => [] | some true => [45] | some false => [43]

/-- The number with its sign -/
def withSign (s : Option Bool) (n : Nat) : Int := if s = some true then - (n : Int) else n

theorem nextToken_numeral {s : Option Bool} {b : UInt8} {t v : Str} {ty : Nat} (hb : Dig b)
    (h : ∀ pre : Str, numberLoop (b.toNat == 48) tInteger (pre ++ [b]) (runes t) = .ok (ty, [], pre ++ v)) :
    nextToken (runes (signText s ++ b :: t)) = .ok (⟨(if s = some true then [45] else []) ++ v, ty⟩, []) := by
  have hd : isDigit b.toNat = true := by unfold Dig at hb; unfold isDigit; simp; omega
  have hc : ∀ pre : Str, consumeNumber b.toNat pre tInteger (runes t) = .ok (ty, [], pre ++ v) := by
    intro pre
    unfold Dig at hb
    unfold consumeNumber
    rw [encode_ascii (by omega), u8_ext rfl]
    exact h pre
  unfold Dig at hb
  match s with
  | none =>
    show nextToken (runes (b :: t)) = _
    rw [runes_ascii (by omega), nextToken.eq_def]
    dsimp only
    rw [if_neg (by omega), if_neg (by omega), if_neg (by omega), if_neg (by omega), if_neg (by omega), if_neg (by omega), if_neg (by omega)]
    unfold buildToken
    rw [if_pos hd, hc]
    rfl
  | some true =>
    show nextToken (runes (45 :: b :: t)) = _
    rw [runes_ascii (by decide), nextToken.eq_def]
    dsimp only
    rw [if_neg (by decide), if_neg (by decide), if_neg (by decide), if_neg (by decide), if_neg (by decide), if_neg (by decide),
      if_pos (by decide), runes_ascii (by omega)]
    unfold signed
    dsimp only
    rw [if_pos hd, if_pos (by decide), hc]
    rfl
  | some false =>
    show nextToken (runes (43 :: b :: t)) = _
    rw [runes_ascii (by decide), nextToken.eq_def]
    dsimp only
    rw [if_neg (by decide), if_neg (by decide), if_neg (by decide), if_neg (by decide), if_neg (by decide), if_neg (by decide),
      if_pos (by decide), runes_ascii (by omega)]
    unfold signed
    dsimp only
    rw [if_pos hd, if_neg (by decide), hc]
    rfl

theorem tokenInt_sign {s : Option Bool} {v : Str} {n : Nat} (hv : parseUint v = some n) (h0 : ∃ b t, v = b :: t ∧ Dig b)
    (hn : if s = some true then n ≤ 2 ^ 63 else n < 2 ^ 63) :
    tokenInt ⟨(if s = some true then [45] else []) ++ v, tInteger⟩ = BitVec.ofInt 64 (withSign s n) := by
  obtain ⟨b, t, rfl, hb⟩ := h0
  have hp : parseInt ((if s = some true then [45] else []) ++ b :: t) = withSign s n := by
    unfold withSign
    by_cases hs : s = some true
    · rw [if_pos hs] at hn ⊢
      rw [if_pos hs]
      unfold parseInt
      simp only [List.cons_append, List.nil_append, hv, if_pos hn]
    · rw [if_neg hs] at hn ⊢
      rw [if_neg hs]
      unfold parseInt
      rw [List.nil_append]
      unfold Dig at hb
      split
      · rename_i h; cases h; exact absurd hb.1 (by decide)
      · rename_i h; cases h; exact absurd hb.1 (by decide)
      · rw [hv]; simp [hn]
  unfold tokenInt
  rw [hp]

/-- **C57, as far as it holds.**  A text that is the digits of a number, in base ten, in base sixteen after `0x` or `0X`, or in base eight
after `0`, with a sign or without one, is read as that number, if it is in range.  The digits are all the digits there are: see
`C57_violated` for what is accepted besides. -/
theorem C57_partial (E : PEnv) (s : Option Bool) (d : Nat × Bool) (ds : List (Nat × Bool)) :
    (∀ n, numeral 10 ((d :: ds).map (·.1)) = n → (∀ x ∈ d :: ds, x.1 < 10) → (d.1 ≠ 0 ∨ ds = []) →
      (if s = some true then n ≤ 2 ^ 63 else n < 2 ^ 63) →
      parse E (signText s ++ (d :: ds).map fun d => digitChar d.1 d.2) = .ok (.val (.int (BitVec.ofInt 64 (withSign s n))))) ∧
    (∀ n, numeral 16 ((d :: ds).map (·.1)) = n → (∀ x ∈ d :: ds, x.1 < 16) →
      (if s = some true then n ≤ 2 ^ 63 else n < 2 ^ 63) → ∀ x ∈ [(120 : UInt8), 88],
      parse E (signText s ++ [48, x] ++ (d :: ds).map fun d => digitChar d.1 d.2) =
        .ok (.val (.int (BitVec.ofInt 64 (withSign s n))))) ∧
    (∀ n, numeral 8 ((d :: ds).map (·.1)) = n → (∀ x ∈ d :: ds, x.1 < 8) →
      (if s = some true then n ≤ 2 ^ 63 else n < 2 ^ 63) →
      parse E (signText s ++ [48] ++ (d :: ds).map fun d => digitChar d.1 d.2) =
        .ok (.val (.int (BitVec.ofInt 64 (withSign s n))))) := by
  have all : ∀ (b : UInt8) (ds : List (Nat × Bool)) (pre : Str), (∀ x ∈ ds, x.1 < 10) →
      numberLoop (b.toNat == 48) tInteger (pre ++ [b]) (runes (ds.map fun d => digitChar d.1 d.2)) =
        .ok (tInteger, [], pre ++ (b :: ds.map fun d => digitChar d.1 d.2)) := by
    intro b ds pre h
    have := numberLoop_digits (b.toNat == 48) tInteger [] (ds.map fun d => digitChar d.1 d.2) (pre ++ [b]) (by
      intro c hc
      obtain ⟨x, hx, rfl⟩ := List.mem_map.1 hc
      exact (dig_char (h x hx) x.2).1)
    rw [List.append_nil] at this
    rw [this, runes_nil, numberLoop_stops (i := []) True.intro]
    simp
  refine ⟨?_, ?_, ?_⟩
  · intro n hn hd h0 hr
    have hd0 := dig_char (hd d List.mem_cons_self) d.2
    rw [List.map_cons, parse_integer (nextToken_numeral hd0.1 fun pre => all _ ds pre fun x hx => hd x (List.mem_cons_of_mem _ hx))]
    rw [tokenInt_sign (n := n) ?_ ⟨_, _, rfl, hd0.1⟩ hr]
    have hp : parseDigits 10 0 ((d :: ds).map fun d => digitChar d.1 d.2) = some n := by
      rw [parseDigits_chars (by decide) _ _ hd, ← hn]; rfl
    rw [List.map_cons] at hp
    by_cases h48 : (digitChar d.1 d.2).toNat = 48
    · have hz := hd0.2 h48
      rcases h0 with h0 | rfl
      · exact absurd hz h0
      · have : digitChar d.1 d.2 = 48 := by rw [← u8_ext h48.symm]; rfl
        rw [this] at hp ⊢
        rw [← hn]
        show some 0 = some (0 * 10 + d.1)
        rw [hz]
    · rw [parseUint.eq_def]
      split
      · rename_i h; cases h
      · rename_i h; simp only [List.cons.injEq] at h; rw [h.1] at h48; exact absurd rfl h48
      · rename_i h; simp only [List.cons.injEq] at h; rw [h.1] at h48; exact absurd rfl h48
      · exact hp
  · intro n hn hd hr x hx
    have hx' : x.toNat = 120 ∨ x.toNat = 88 := by
      rcases List.mem_cons.1 hx with rfl | hx
      · exact Or.inl rfl
      · rw [List.mem_singleton.1 hx]; exact Or.inr rfl
    have hx2 : x = 120 ∨ x = 88 := by simpa using hx
    have hh := isHex_char (hd d List.mem_cons_self) d.2
    have loop : ∀ pre : Str, numberLoop ((48 : UInt8).toNat == 48) tInteger (pre ++ [48]) (runes (x :: (d :: ds).map fun d => digitChar d.1 d.2)) =
        .ok (tInteger, [], pre ++ 48 :: x :: (d :: ds).map fun d => digitChar d.1 d.2) := by
      intro pre
      have : (((48 : UInt8).toNat == 48) : Bool) = true := by decide
      rw [this, runes_ascii (by omega), numberLoop.eq_def]
      dsimp only
      rw [if_neg (by omega), if_neg (by omega), if_neg (by omega), if_pos (by omega), if_pos rfl, List.map_cons, runes_ascii hh.2, hexStart]
      rw [if_pos hh.1, consumeHex_chars ds _ fun d hd' => hd d (List.mem_cons_of_mem _ hd'), encode_ascii hh.2, u8_ext rfl,
        encode_ascii (by omega), u8_ext rfl]
      simp [Except.map]
    have := nextToken_numeral (s := s) (b := 48) (t := x :: (d :: ds).map fun d => digitChar d.1 d.2) (by unfold Dig; decide) loop
    rw [List.append_assoc]
    show parse E (signText s ++ 48 :: x :: (d :: ds).map fun d => digitChar d.1 d.2) = _
    rw [parse_integer this, tokenInt_sign (n := n) ?_ ⟨_, _, rfl, by unfold Dig; decide⟩ hr]
    have hp : parseDigits 16 0 ((d :: ds).map fun d => digitChar d.1 d.2) = some n := by
      rw [parseDigits_chars (by decide) _ _ hd, ← hn]; rfl
    show (if x = 120 ∨ x = 88 then parseDigits 16 0 ((d :: ds).map fun d => digitChar d.1 d.2) else _) = some n
    rw [if_pos hx2, hp]
  · intro n hn hd hr
    have := nextToken_numeral (s := s) (b := 48) (t := (d :: ds).map fun d => digitChar d.1 d.2) (by unfold Dig; decide)
      fun pre => all 48 (d :: ds) pre fun x hx => Nat.lt_trans (hd x hx) (by decide)
    rw [List.append_assoc]
    show parse E (signText s ++ 48 :: (d :: ds).map fun d => digitChar d.1 d.2) = _
    rw [parse_integer this, tokenInt_sign (n := n) ?_ ⟨_, _, rfl, by unfold Dig; decide⟩ hr]
    have hp : parseDigits 8 0 ((d :: ds).map fun d => digitChar d.1 d.2) = some n := by
      rw [parseDigits_chars (by decide) _ _ hd, ← hn]; rfl
    have hoct : ∀ d : Fin 8, ∀ u : Bool, digitChar d u ≠ 120 ∧ digitChar d u ≠ 88 ∧ digitChar d u ≠ 98 ∧ digitChar d u ≠ 66 ∧
        digitChar d u ≠ 111 ∧ digitChar d u ≠ 79 := by decide
    have ho := hoct ⟨d.1, hd d List.mem_cons_self⟩ d.2
    rw [List.map_cons] at hp ⊢
    cases ds with
    | nil => exact hp
    | cons e ds =>
      show (if _ then _ else if _ then _ else if _ then _ else _) = some n
      rw [if_neg (fun h => h.elim ho.1 ho.2.1), if_neg (fun h => h.elim ho.2.2.1 ho.2.2.2.1),
        if_neg (fun h => h.elim ho.2.2.2.2.1 ho.2.2.2.2.2)]
      exact hp

/-- `-0x7F` is -127. -/
example (E : PEnv) : parse E [45, 48, 120, 55, 70] = .ok (.val (.int (-127))) :=
  (C57_partial E (some true) (7, false) [(15, true)]).2.1 127 rfl (by decide) (by decide) 120 (by decide)
/-- `012` is 10. -/
example (E : PEnv) : parse E [48, 49, 50] = .ok (.val (.int 10)) :=
  (C57_partial E none (1, false) [(2, true)]).2.2 10 rfl (by decide) (by decide)
/-- `42` -/
example (E : PEnv) : parse E [52, 50] = .ok (.val (.int 42)) :=
  (C57_partial E none (4, false) [(2, true)]).1 42 rfl (by decide) (by decide) (by decide)

/-- **C57 is violated.**  `09` is 0 (there is no such octal digit), `9223372036854775808` is 9223372036854775807 (it is out of range), and
`01x1` is 0 (no number at all): all of them should be rejected. -/
theorem C57_violated (E : PEnv) :
    parse E [48, 57] = .ok (.val (.int 0)) ∧
    parse E [57, 50, 50, 51, 51, 55, 50, 48, 51, 54, 56, 53, 52, 55, 55, 53, 56, 48, 56] = .ok (.val (.int 9223372036854775807)) ∧
    parse E [48, 49, 120, 49] = .ok (.val (.int 0)) := by
  refine ⟨?_, ?_, ?_⟩
  · refine (parse_integer (v := [48, 57]) ?_).trans rfl
    simp only [runes_cons, runes_nil]; rfl
  · refine (parse_integer (v := [57, 50, 50, 51, 51, 55, 50, 48, 51, 54, 56, 53, 52, 55, 55, 53, 56, 48, 56]) ?_).trans ?_
    · simp only [runes_cons, runes_nil]; rfl
    · rfl
  · refine (parse_integer (v := [48, 49, 120, 49]) ?_).trans rfl
    simp only [runes_cons, runes_nil]; rfl

theorem parseDigits_bad {base : Nat} (hb : base ≤ 16) (ds : List (Nat × Bool)) (acc : Nat) (h : ∀ d ∈ ds, d.1 < 16) (hx : ∃ d ∈ ds, base ≤ d.1) :
    parseDigits base acc (ds.map fun d => digitChar d.1 d.2) = none := by
  induction ds generalizing acc with
  | nil => obtain ⟨d, hd, _⟩ := hx; cases hd
  | cons d ds ih =>
    rw [List.map_cons, parseDigits, digitVal_char (h d List.mem_cons_self)]
    dsimp only
    by_cases hd : d.1 < base
    · rw [if_pos hd]
      obtain ⟨e, he, hbe⟩ := hx
      rcases List.mem_cons.1 he with rfl | he
      · omega
      · exact ih _ (fun x hx => h x (List.mem_cons_of_mem _ hx)) ⟨e, he, hbe⟩
    · rw [if_neg hd]

theorem parse_decimals (E : PEnv) (s : Option Bool) (d : Nat × Bool) (ds : List (Nat × Bool)) (h : ∀ x ∈ d :: ds, x.1 < 10) :
    parse E (signText s ++ (d :: ds).map fun d => digitChar d.1 d.2) =
      .ok (.val (.int (tokenInt ⟨(if s = some true then [45] else []) ++ (d :: ds).map fun d => digitChar d.1 d.2, tInteger⟩))) := by
  have hd0 := dig_char (h d List.mem_cons_self) d.2
  rw [List.map_cons]
  refine parse_integer (nextToken_numeral hd0.1 fun pre => ?_)
  have := numberLoop_digits ((digitChar d.1 d.2).toNat == 48) tInteger [] (ds.map fun d => digitChar d.1 d.2) (pre ++ [digitChar d.1 d.2]) (by
    intro c hc
    obtain ⟨x, hx, rfl⟩ := List.mem_map.1 hc
    exact (dig_char (h x (List.mem_cons_of_mem _ hx)) x.2).1)
  rw [List.append_nil] at this
  rw [this, runes_nil, numberLoop_stops (i := []) True.intro]
  simp

/-- **C57 is violated for every such text.**  Digits after a `0`, one of which is an 8 or a 9, stand for no octal number: they are read as 0,
with any sign.  Digits of a decimal number that is out of range are read as the nearest number in range. -/
theorem C57_wrong_violated (E : PEnv) (s : Option Bool) (d : Nat × Bool) (ds : List (Nat × Bool)) (h : ∀ x ∈ d :: ds, x.1 < 10) :
    ((∃ x ∈ d :: ds, 8 ≤ x.1) →
      parse E (signText s ++ 48 :: (d :: ds).map fun d => digitChar d.1 d.2) = .ok (.val (.int 0))) ∧
    (d.1 ≠ 0 → 2 ^ 63 < numeral 10 ((d :: ds).map (·.1)) →
      parse E (signText s ++ (d :: ds).map fun d => digitChar d.1 d.2) =
        .ok (.val (.int (BitVec.ofInt 64 (if s = some true then - 2 ^ 63 else 2 ^ 63 - 1))))) := by
  constructor
  · intro hx
    have := parse_decimals E s (0, false) (d :: ds) (by
      intro x hx
      rcases List.mem_cons.1 hx with rfl | hx
      · decide
      · exact h x hx)
    have hz : digitChar 0 false = 48 := rfl
    rw [List.map_cons, hz] at this
    rw [this]
    have hp : parseUint (48 :: (d :: ds).map fun d => digitChar d.1 d.2) = none := by
      have hb := parseDigits_bad (base := 8) (by decide) (d :: ds) 0 (fun x hx => Nat.lt_trans (h x hx) (by decide)) hx
      have hdec : ∀ d : Fin 10, ∀ u : Bool, digitChar d u ≠ 120 ∧ digitChar d u ≠ 88 ∧ digitChar d u ≠ 98 ∧ digitChar d u ≠ 66 ∧
          digitChar d u ≠ 111 ∧ digitChar d u ≠ 79 := by decide
      have ho := hdec ⟨d.1, h d List.mem_cons_self⟩ d.2
      rw [List.map_cons] at hb ⊢
      cases ds with
      | nil => exact hb
      | cons e ds =>
        show (if _ then _ else if _ then _ else if _ then _ else _) = _
        rw [if_neg (fun h => h.elim ho.1 ho.2.1), if_neg (fun h => h.elim ho.2.2.1 ho.2.2.2.1),
          if_neg (fun h => h.elim ho.2.2.2.2.1 ho.2.2.2.2.2)]
        exact hb
    unfold tokenInt parseInt
    by_cases hs : s = some true
    · simp only [if_pos hs, List.cons_append, List.nil_append, hp]; rfl
    · simp only [if_neg hs, List.nil_append]
      simp only [hp]; rfl
  · intro h0 hn
    rw [parse_decimals E s d ds h]
    have hd0 := dig_char (h d List.mem_cons_self) d.2
    have hp : parseUint ((d :: ds).map fun d => digitChar d.1 d.2) = some (numeral 10 ((d :: ds).map (·.1))) := by
      have hp : parseDigits 10 0 ((d :: ds).map fun d => digitChar d.1 d.2) = some (numeral 10 ((d :: ds).map (·.1))) :=
        parseDigits_chars (by decide) _ _ h
      have h48 : (digitChar d.1 d.2).toNat ≠ 48 := fun he => h0 (hd0.2 he)
      rw [List.map_cons] at hp ⊢
      rw [parseUint.eq_def]
      split
      · rename_i h; cases h
      · rename_i h; simp only [List.cons.injEq] at h; rw [h.1] at h48; exact absurd rfl h48
      · rename_i h; simp only [List.cons.injEq] at h; rw [h.1] at h48; exact absurd rfl h48
      · exact hp
    unfold tokenInt
    by_cases hs : s = some true
    · unfold parseInt
      simp only [if_pos hs, List.cons_append, List.nil_append, hp]
      rw [if_neg (by omega)]
    · simp only [if_neg hs, List.nil_append]
      rw [List.map_cons] at hp ⊢
      have hb := hd0.1
      unfold Dig at hb
      unfold parseInt
      split
      · rename_i h; simp only [List.cons.injEq] at h; rw [h.1] at hb; exact absurd hb.1 (by decide)
      · rename_i h; simp only [List.cons.injEq] at h; rw [h.1] at hb; exact absurd hb.1 (by decide)
      · simp only [hp]
        rw [if_neg (by omega)]

/-- `-0779` is 0. -/
example (E : PEnv) : parse E [45, 48, 55, 55, 57] = .ok (.val (.int 0)) :=
  (C57_wrong_violated E (some true) (7, false) [(7, false), (9, false)] (by decide)).1 ⟨(9, false), by decide, by decide⟩

/-! ### C55: what does not belong to the language -/

/-- How a token of each type starts: a digit or a sign, quotes, a slash, a letter, a dot; or it is the character itself. -/
def StartsWith (c : Nat) (t : Token) : Prop :=
  (t.type ∈ [1, 2] ∧ (48 ≤ c ∧ c ≤ 57 ∨ c = 43 ∨ c = 45)) ∨ (t.type = 3 ∧ (c = 34 ∨ c = 96)) ∨ (t.type = 4 ∧ c = 47) ∨
  (t.type = 5 ∧ (65 ≤ c ∧ c ≤ 90 ∨ 97 ≤ c ∧ c ≤ 122 ∨ c = 36 ∨ c = 95)) ∨
  (t.type = 6 ∧ t.value = [46, 46] ∧ c = 46) ∨ (t.type = 7 ∧ t.value = [46, 46, 46] ∧ c = 46) ∨ (t.type = c ∧ t.value = [] ∧ 7 < c)

/-- **C55, as far as it holds.**  If none of the characters with the codes 0 to 7 occurs, then a token other than the end token starts with
a character that such a token may start with; any other character yields a token of its own, which no rule of the grammar has unless it is
one of the punctuation characters. -/
theorem C55_partial {i i' : In} {t : Token} (h : nextToken i = .ok (t, i')) (hc : ∀ c, some c ∈ i → 7 < c) (ht : t.type ≠ 0) :
    ∃ blanks c u, (∀ b ∈ blanks, b = some 32 ∨ b = some 9 ∨ b = some 10) ∧ i = blanks ++ some c :: u ∧ i' <:+ u ∧ StartsWith c t := by
  fun_induction nextToken i with
  | case1 => cases h; exact absurd rfl ht
  | case2 => cases h
  | case3 _ => cases h; exact absurd rfl ht
  | case4 r t' _ hr ih =>
    obtain ⟨bl, c, u, h1, h2, h3⟩ := ih h fun c hm => hc c (List.mem_cons_of_mem _ hm)
    refine ⟨some r :: bl, c, u, ?_, by rw [h2]; rfl, h3⟩
    intro b hb
    rcases List.mem_cons.1 hb with rfl | hb
    · simpa using hr
    · exact h1 b hb
  | case5 r =>
    obtain ⟨⟨a, c⟩, h1, h2⟩ := map_ok h
    cases h2
    exact ⟨[], _, _, by simp, rfl, consumeRaw_suffix h1, Or.inr (Or.inl ⟨rfl, Or.inr rfl⟩)⟩
  | case6 r =>
    obtain ⟨⟨a, c⟩, h1, h2⟩ := map_ok h
    cases h2
    exact ⟨[], _, _, by simp, rfl, consumeString_suffix h1, Or.inr (Or.inl ⟨rfl, Or.inl rfl⟩)⟩
  | case7 r =>
    obtain ⟨⟨a, c⟩, h1, h2⟩ := map_ok h
    cases h2
    exact ⟨[], _, _, by simp, rfl, consumeRegexp_suffix h1, Or.inr (Or.inr (Or.inl ⟨rfl, rfl⟩))⟩
  | case8 r =>
    refine ⟨[], _, _, by simp, rfl, (dots_suffix h).1, ?_⟩
    unfold dots at h
    unfold StartsWith
    split at h
    · cases h; simp
    · cases h
    · split at h
      · split at h
        · cases h; simp [tDotdot]
        · cases h
        · split at h
          · cases h; simp [tDotdotdot]
          · cases h; simp [tDotdot]
      · cases h; simp
  | case9 r t' _ _ _ _ _ _ hs =>
    refine ⟨[], _, _, by simp, rfl, (signed_suffix h).1, Or.inl ⟨?_, by omega⟩⟩
    unfold signed at h
    split at h
    · cases h
    · cases h
    · split at h
      · obtain ⟨⟨ty, a, c⟩, h1, h2⟩ := map_ok h
        cases h2
        have := (numberLoop_suffix (Or.inl rfl) h1).2
        rcases this with rfl | rfl <;> simp [tInteger, tFloat]
      · cases h
  | case10 r t' h0 =>
    refine ⟨[], _, _, by simp, rfl, (buildToken_suffix h0 h).1, ?_⟩
    unfold buildToken at h
    split at h
    · rename_i hd
      obtain ⟨⟨ty, a, c⟩, h1, h2⟩ := map_ok h
      cases h2
      have := (numberLoop_suffix (Or.inl rfl) h1).2
      refine Or.inl ⟨by rcases this with rfl | rfl <;> simp [tInteger, tFloat], ?_⟩
      simp [isDigit] at hd
      omega
    · split at h
      · rename_i hd
        obtain ⟨⟨a, c⟩, h1, h2⟩ := map_ok h
        cases h2
        refine Or.inr (Or.inr (Or.inr (Or.inl ⟨rfl, ?_⟩)))
        simp [isIdStart, isLetter, isUpper, isLower] at hd
        omega
      · cases h
        exact Or.inr (Or.inr (Or.inr (Or.inr (Or.inr (Or.inr ⟨rfl, rfl, hc _ List.mem_cons_self⟩)))))

/-- ` @]`: a character of no use is a token of its own -/
example : nextToken (runes [32, 64, 93]) = .ok (⟨[], 64⟩, runes [93]) ∧ ∀ c, some c ∈ runes [32, 64, 93] → 7 < c := by
  simp only [runes_cons, runes_nil]
  refine ⟨rfl, ?_⟩
  intro c hc
  simp at hc
  omega

/-- **C55 is violated.**  The control character U+0001 is read as the integer 0, U+0003 as the empty string, and everything after a
character NUL is ignored. -/
theorem C55_violated (E : PEnv) :
    parse E [1] = .ok (.val (.int 0)) ∧ parse E [3] = .ok (.val (.str [])) ∧
    ∀ garbage : Str, parse E ([105, 110, 116, 0] ++ garbage) = .ok (.ty .intT) := by
  refine ⟨?_, ?_, ?_⟩
  · refine (parse_integer (v := []) ?_).trans rfl
    simp only [runes_cons, runes_nil]; rfl
  · have h1 : nextToken [] = .ok (⟨[], tEnd⟩, []) := rfl
    have h : nextToken (runes [3]) = .ok (⟨[], tString⟩, []) := by simp only [runes_cons, runes_nil]; rfl
    unfold parse
    rw [tokens_cons h (by decide), tokens_end h1 rfl]
    rfl
  · intro g
    have h : nextToken (runes ([105, 110, 116, 0] ++ g)) = .ok (⟨[105, 110, 116], tIdentifier⟩, some 0 :: runes g) := by
      simp only [List.cons_append, List.nil_append]
      rw [runes_ascii (by decide), runes_ascii (by decide), runes_ascii (by decide), runes_ascii (by decide)]
      rfl
    have h1 : nextToken (some 0 :: runes g) = .ok (⟨[], tEnd⟩, runes g) := rfl
    unfold parse
    rw [tokens_cons h (show tIdentifier ≠ tEnd by decide), tokens_end h1 rfl]
    rfl

end Verif.Text
