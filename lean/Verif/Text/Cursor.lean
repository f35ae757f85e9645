import Verif.Text.Reader
/-!
# Sequences of calls of a string reader
-/
set_option autoImplicit false
set_option linter.unusedVariables false
namespace Verif.Text
open Verif.Value (Str runeLen)

/-- A call of a string reader -/
inductive ROp where
  | next
  | peek
  | peek2
  | rewind

/-- The result of a call, if it has one, and the reader after it; `none`: the call panics. -/
def Reader.call (r : Reader) : ROp → Option (List Nat × Reader)
  | .next => r.next.map fun x => ([x.1], x.2)
  | .peek => r.peek.map fun x => ([x], r)
  | .peek2 => r.peek2.map fun x => ([x], r)
  | .rewind => some ([], r.rewind)

/-- Calls one after the other: the results, and the reader at the end -/
def Reader.calls (r : Reader) : List ROp → Option (List Nat × Reader)
  | [] => some ([], r)
  | o :: os =>
    match r.call o with
    | none => none
    | some (x, r') => (r'.calls os).map fun y => (x ++ y.1, y.2)

/-! ## Specification: a number, of the characters that have been consumed -/

/-- The text `s` is the characters `cs`, followed, if `bad`, by something that is not a character (or by U+FFFD). -/
def IsText (s : Str) (cs : List Nat) (bad : Bool) : Prop :=
  (∀ c ∈ cs, Readable c) ∧ ∃ r, s = textOf cs ++ r ∧ (if bad then r ≠ [] ∧ decode r = runeError else r = [])

/-- The character at index `n`: after the text, 0, or a panic. -/
def charAt (cs : List Nat) (bad : Bool) (n : Nat) : Option Nat :=
  match cs[n]? with
  | some c => some c
  | none => if bad then none else some 0

/-- What a call does: its result and the number of characters consumed after it. -/
def specCall (cs : List Nat) (bad : Bool) (n : Nat) : ROp → Option (List Nat × Nat)
  | .next => (charAt cs bad n).map fun c => ([c], n + 1)
  | .peek => (charAt cs bad n).map fun c => ([c], n)
  | .peek2 => (charAt cs bad n).bind fun _ => (charAt cs bad (n + 1)).map fun c => ([c], n)
  | .rewind => some ([], 0)

def specCalls (cs : List Nat) (bad : Bool) (n : Nat) : List ROp → Option (List Nat × Nat)
  | [] => some ([], n)
  | o :: os =>
    match specCall cs bad n o with
    | none => none
    | some (x, n') => (specCalls cs bad n' os).map fun y => (x ++ y.1, y.2)

/-- How many characters there are after the last line break of `l` -/
def sinceBreak (l : List Nat) : Nat := (l.reverse.takeWhile (· ≠ 10)).length

/-! ## The reader follows the specification -/

theorem isText_runes {s : Str} {cs : List Nat} {bad : Bool} (h : IsText s cs bad) :
    runes s = cs.map some ++ (if bad then [none] else []) := by
  obtain ⟨h1, r, rfl, h2⟩ := h
  rw [runes_textOf h1]
  cases bad with
  | false => simp only [Bool.false_eq_true, if_false] at h2 ⊢; subst h2; rw [runes_nil]
  | true =>
    simp only [if_true] at h2 ⊢
    obtain ⟨h3, h4⟩ := h2
    cases r with
    | nil => exact absurd rfl h3
    | cons b t =>
      rw [runes_cons]
      split
      · rename_i hb
        exfalso
        unfold decode at h4
        have hl : runeLen (b :: t) = 1 := by
          unfold runeLen; dsimp only; rw [if_pos (by omega)]
        rw [hl] at h4
        simp only [hb, if_true] at h4
        unfold runeError at h4
        omega
      · rfl

structure RInv (s : Str) (cs : List Nat) (bad : Bool) (r : Reader) (n : Nat) : Prop where
  text : r.s = s
  left : r.left = (cs.map some ++ (if bad then [none] else [])).drop n
  pos : n ≤ cs.length → r.p ≤ s.length
  past : cs.length < n → bad = false ∧ r.p = s.length + 1
  line : r.l = (cs.take n).count 10
  col : r.c = sinceBreak (cs.take n) + (if 10 ∈ cs.take n then 1 else 0) + (if cs.length < n then 1 else 0)

theorem RInv.start {s : Str} {cs : List Nat} {bad : Bool} (h : IsText s cs bad) {r : Reader} (h1 : r.s = s) (h2 : r.p = 0) (h3 : r.l = 0)
    (h4 : r.c = 0) : RInv s cs bad r 0 :=
  ⟨h1, by unfold Reader.left; rw [h1, h2, List.drop_zero, List.drop_zero, isText_runes h], fun _ => by omega, fun h => by omega,
   by rw [h3]; rfl, by rw [h4]; rfl⟩

theorem drop_cons {cs : List Nat} {n : Nat} (h : n < cs.length) (t : In) :
    (cs.map some ++ t).drop n = some cs[n] :: (cs.map some ++ t).drop (n + 1) := by
  rw [List.drop_eq_getElem_cons (by simp; omega)]
  congr 1
  rw [List.getElem_append_left (by simpa using h)]
  simp

theorem RInv.peek {s : Str} {cs : List Nat} {bad : Bool} {r : Reader} {n : Nat} (h : RInv s cs bad r n) :
    In.peek ((cs.map some ++ (if bad then [none] else [])).drop n) = charAt cs bad n := by
  unfold charAt
  by_cases hn : n < cs.length
  · rw [drop_cons hn, List.getElem?_eq_getElem hn]; rfl
  · rw [List.getElem?_eq_none (by omega)]
    dsimp only
    cases bad with
    | false =>
      rw [List.drop_eq_nil_of_le (by simp; omega)]; rfl
    | true =>
      have : n = cs.length := by
        refine Nat.le_antisymm ?_ (by omega)
        exact Decidable.byContradiction fun hc => by have := (h.past (by omega)).1; contradiction
      subst this
      rw [show cs.length = (cs.map some).length by simp, List.drop_left]; rfl

theorem RInv.peek2 {s : Str} {cs : List Nat} {bad : Bool} {r : Reader} {n : Nat} (h : RInv s cs bad r n) :
    In.peek2 ((cs.map some ++ (if bad then [none] else [])).drop n) = (charAt cs bad n).bind fun _ => charAt cs bad (n + 1) := by
  unfold charAt
  by_cases hn : n < cs.length
  · rw [drop_cons hn, List.getElem?_eq_getElem hn]
    simp only [In.peek2, Option.bind_some]
    by_cases hn1 : n + 1 < cs.length
    · rw [drop_cons hn1, List.getElem?_eq_getElem hn1]; rfl
    · have : n + 1 = cs.length := by omega
      rw [List.getElem?_eq_none (by omega), this, show cs.length = (cs.map some).length by simp, List.drop_left]
      cases bad <;> rfl
  · rw [List.getElem?_eq_none (by omega), List.getElem?_eq_none (by omega)]
    dsimp only
    cases bad with
    | false =>
      rw [List.drop_eq_nil_of_le (by simp; omega)]; rfl
    | true =>
      have : n = cs.length := by
        refine Nat.le_antisymm ?_ (by omega)
        exact Decidable.byContradiction fun hc => by have := (h.past (by omega)).1; contradiction
      subst this
      rw [show cs.length = (cs.map some).length by simp, List.drop_left]; rfl

theorem take_next {cs : List Nat} {n : Nat} (h : n < cs.length) : cs.take (n + 1) = cs.take n ++ [cs[n]] := by
  rw [List.take_succ_eq_append_getElem h]

theorem sinceBreak_snoc (l : List Nat) (c : Nat) : sinceBreak (l ++ [c]) = if c = 10 then 0 else sinceBreak l + 1 := by
  unfold sinceBreak
  rw [List.reverse_append, List.reverse_cons, List.reverse_nil, List.nil_append, List.cons_append, List.nil_append, List.takeWhile_cons]
  by_cases h : c = 10
  · simp [h]
  · simp [h]

theorem RInv.next {s : Str} {cs : List Nat} {bad : Bool} {r : Reader} {n : Nat} (h : RInv s cs bad r n) :
    match r.next with
    | none => charAt cs bad n = none
    | some (c, r') => charAt cs bad n = some c ∧ RInv s cs bad r' (n + 1) := by
  have hl := next_left r
  have hp := h.peek
  rw [h.left] at hl
  by_cases hn : n < cs.length
  · rw [drop_cons hn] at hl
    have hch : charAt cs bad n = some cs[n] := by unfold charAt; rw [List.getElem?_eq_getElem hn]
    cases hr : r.next with
    | none => rw [hr] at hl; cases hl
    | some x =>
      obtain ⟨c, r'⟩ := x
      rw [hr] at hl
      simp only [Option.map_some, In.next, Option.some.injEq, Prod.mk.injEq] at hl
      obtain ⟨rfl, hl⟩ := hl
      refine ⟨hch, ?_⟩
      -- the shape of the step
      have hd : r.s.drop r.p ≠ [] := by
        intro he
        have := h.left
        unfold Reader.left at this
        rw [he, runes_nil, drop_cons hn] at this
        cases this
      have step : r'.s = r.s ∧ r'.p ≤ r.s.length ∧
          (r'.l = r.l + (if cs[n] = 10 then 1 else 0)) ∧ r'.c = (if cs[n] = 10 then 0 else r.c) + 1 := by
        unfold Reader.next at hr
        cases hdd : r.s.drop r.p with
        | nil => exact absurd hdd hd
        | cons b t =>
          have hlen : r.p + (b :: t).length = r.s.length := by
            have := congrArg List.length hdd
            rw [List.length_drop] at this
            rw [List.length_cons] at this ⊢
            omega
          rw [List.length_cons] at hlen
          have hrl := runeLen_cons b t
          rw [List.length_cons] at hrl
          rw [hdd] at hr
          dsimp only at hr
          split at hr
          · split at hr
            · rename_i h10
              simp only [Option.some.injEq, Prod.mk.injEq] at hr
              obtain ⟨h1, rfl⟩ := hr
              rw [← h1]
              exact ⟨rfl, by show r.p + 1 ≤ _; omega, rfl, rfl⟩
            · rename_i h10
              simp only [Option.some.injEq, Prod.mk.injEq] at hr
              obtain ⟨h1, rfl⟩ := hr
              rw [← h1, if_neg h10, if_neg h10]
              exact ⟨rfl, by show r.p + 1 ≤ _; omega, rfl, rfl⟩
          · rename_i hb
            split at hr
            · cases hr
            · rename_i hde
              simp only [Option.some.injEq, Prod.mk.injEq] at hr
              obtain ⟨h1, rfl⟩ := hr
              have h10 : cs[n] ≠ 10 := by
                rw [← h1]
                intro hc
                have he := encode_decode (s := b :: t) (by simp) (Or.inl hde)
                have := (encode_head (c := decode (b :: t)) he.1 (b := b) (t := t) (r := (b :: t).drop (runeLen (b :: t)))
                  (by rw [he.2, List.take_append_drop])).2 (by omega)
                exact hb this
              rw [if_neg h10, if_neg h10]
              exact ⟨rfl, by show r.p + _ ≤ _; omega, rfl, rfl⟩
      obtain ⟨s1, s2, s3, s4⟩ := step
      refine ⟨s1.trans h.text, hl, fun _ => h.text ▸ s2, fun hc => by omega, ?_, ?_⟩
      · rw [s3, h.line, take_next hn, List.count_append, List.count_singleton]
        by_cases h10 : cs[n] = 10 <;> simp [h10]
      · rw [s4, h.col, take_next hn, sinceBreak_snoc]
        simp only [show ¬ cs.length < n by omega, show ¬ cs.length < n + 1 by omega, if_false, List.mem_append, List.mem_singleton]
        by_cases h10 : cs[n] = 10
        · simp [h10]
        · rw [if_neg h10, if_neg h10]
          have : (10 ∈ cs.take n ∨ 10 = cs[n]) ↔ 10 ∈ cs.take n := by
            constructor
            · rintro (h | h)
              · exact h
              · exact absurd h.symm h10
            · exact Or.inl
          simp only [this]
          omega
  · have hch : charAt cs bad n = if bad then none else some 0 := by unfold charAt; rw [List.getElem?_eq_none (by omega)]
    cases bad with
    | true =>
      have hx : In.peek ((cs.map some ++ (if true then [none] else [])).drop n) = none := by rw [hp, hch]; rfl
      cases hr : r.next with
      | none => exact hch
      | some x =>
        exfalso
        rw [hr] at hl
        have : n = cs.length := by
          refine Nat.le_antisymm ?_ (by omega)
          exact Decidable.byContradiction fun hc => by have := (h.past (by omega)).1; contradiction
        subst this
        rw [show cs.length = (cs.map some).length by simp, List.drop_left] at hl
        cases hl
    | false =>
      rw [List.drop_eq_nil_of_le (by simp; omega)] at hl
      have hd : r.s.drop r.p = [] := by
        have hll := h.left
        unfold Reader.left at hll
        rw [List.drop_eq_nil_of_le (as := cs.map some ++ (if false = true then [none] else [])) (by simp; omega)] at hll
        cases hc : r.s.drop r.p with
        | nil => rfl
        | cons b t =>
          rw [hc, runes_cons] at hll
          exfalso
          (repeat' split at hll) <;> cases hll
      have hpl : r.s.length ≤ r.p := List.drop_eq_nil_iff.1 hd
      rw [h.text] at hpl
      unfold Reader.next
      rw [hd]
      have htk : ∀ m, cs.length ≤ m → cs.take m = cs := fun m hm => List.take_of_length_le hm
      dsimp only
      by_cases hpe : r.p = r.s.length
      · rw [if_pos hpe]
        have hnc : n = cs.length := Decidable.byContradiction fun hc => by
          have := (h.past (by omega)).2; rw [h.text] at hpe; omega
        refine ⟨hch, h.text, ?_, fun hc => by omega, fun _ => ⟨rfl, ?_⟩, ?_, ?_⟩
        · unfold Reader.left
          dsimp only
          rw [List.drop_eq_nil_of_le (by omega), runes_nil, List.drop_eq_nil_of_le (by simp; omega)]
        · show r.p + 1 = _; rw [hpe, h.text]
        · show r.l = _; rw [h.line, htk n (by omega), htk (n + 1) (by omega)]
        · show r.c + 1 = _
          rw [h.col, htk n (by omega), htk (n + 1) (by omega), if_pos (show cs.length < n + 1 by omega), if_neg (show ¬ cs.length < n by omega)]
      · rw [if_neg hpe]
        have hnc : cs.length < n := Decidable.byContradiction fun hc => by
          have := h.pos (by omega); rw [h.text] at hpe; omega
        refine ⟨hch, h.text, ?_, fun hc => by omega, fun _ => ⟨rfl, (h.past hnc).2⟩, ?_, ?_⟩
        · rw [h.left, List.drop_eq_nil_of_le (by simp; omega), List.drop_eq_nil_of_le (by simp; omega)]
        · rw [h.line, htk n (by omega), htk (n + 1) (by omega)]
        · rw [h.col, htk n (by omega), htk (n + 1) (by omega), if_pos hnc, if_pos (show cs.length < n + 1 by omega)]

/-- The position after the calls: line and column -/
def specPos (cs : List Nat) (n : Nat) : Nat × Nat :=
  (1 + (cs.take n).count 10,
   1 + sinceBreak (cs.take n) + (if 10 ∈ cs.take n then 1 else 0) + (if cs.length < n then 1 else 0))

theorem RInv.calls {s : Str} {cs : List Nat} {bad : Bool} (ht : IsText s cs bad) : ∀ (os : List ROp) {r : Reader} {n : Nat},
    RInv s cs bad r n → (r.calls os).map (fun x => (x.1, x.2.line, x.2.column)) =
      (specCalls cs bad n os).map fun x => (x.1, specPos cs x.2)
  | [], r, n, h => by
    simp only [Reader.calls, specCalls, Option.map_some, Reader.line, Reader.column, specPos, h.line, h.col]
    congr 3 <;> omega
  | o :: os, r, n, h => by
    rw [Reader.calls, specCalls]
    have key : match r.call o with
        | none => specCall cs bad n o = none
        | some (x, r') => ∃ n', specCall cs bad n o = some (x, n') ∧ RInv s cs bad r' n' := by
      cases o with
      | next =>
        have := h.next
        unfold Reader.call specCall
        cases hr : r.next with
        | none => rw [hr] at this; dsimp only at this ⊢; rw [this]; rfl
        | some x => rw [hr] at this; dsimp only at this ⊢; rw [this.1]; exact ⟨_, rfl, this.2⟩
      | peek =>
        have := h.peek
        rw [← h.left, ← peek_left] at this
        unfold Reader.call specCall
        rw [this]
        cases charAt cs bad n with
        | none => rfl
        | some c => exact ⟨_, rfl, h⟩
      | peek2 =>
        have := h.peek2
        rw [← h.left, ← peek2_left] at this
        unfold Reader.call specCall
        rw [this]
        cases charAt cs bad n with
        | none => rfl
        | some c =>
          simp only [Option.bind_some]
          cases charAt cs bad (n + 1) with
          | none => rfl
          | some c => exact ⟨_, rfl, h⟩
      | rewind => exact ⟨0, rfl, RInv.start ht h.text rfl rfl rfl⟩
    cases hc : r.call o with
    | none => rw [hc] at key; dsimp only at key; rw [key]; rfl
    | some x =>
      obtain ⟨x, r'⟩ := x
      rw [hc] at key
      obtain ⟨n', h1, h2⟩ := key
      rw [h1]
      dsimp only
      have ih := RInv.calls ht os h2
      cases h3 : r'.calls os with
      | none =>
        rw [h3] at ih
        cases h4 : specCalls cs bad n' os with
        | none => rfl
        | some y => rw [h4] at ih; cases ih
      | some y =>
        rw [h3] at ih
        cases h4 : specCalls cs bad n' os with
        | none => rw [h4] at ih; cases ih
        | some z =>
          rw [h4] at ih
          simp only [Option.map_some, Option.some.injEq, Prod.mk.injEq] at ih ⊢
          exact ⟨by rw [ih.1], ih.2⟩

end Verif.Text
