import Verif.Text.LexProps
import Verif.Text.NamedLemmas
import Verif.Types.AssignRange
/-!
# Ranges in texts: the specification and lemmas for C111
-/
set_option autoImplicit false
set_option linter.unusedVariables false
set_option linter.unusedSimpArgs false
namespace Verif.Text
open Verif.Value (Str Val F64)
open Verif.Types (Ty Oid maxInt integerType floatType instanceOf)

/-! ## The specification -/

/-- A number in a text: an integer, with decimal digits, or a text with a decimal point or an exponent -/
inductive Num where
  | int (i : BitVec 64)
  | flt (s : Str)

def Num.text : Num → Str
  | .int i => formatInt i.toInt
  | .flt s => s

def Num.isFlt : Num → Bool
  | .int _ => false
  | .flt _ => true

/-- The number as a float -/
def Num.val (E : PEnv) : Num → F64
  | .int i => E.ofInt i
  | .flt s => E.parseFloat s

/-- `-?[0-9]+`, `-?[0-9]+\.[0-9]+` -/
def Num.Plain : Num → Prop
  | .int _ => True
  | .flt s => PlainFloat s

/-- ... or with an exponent -/
def Num.Any : Num → Prop
  | .int _ => True
  | .flt s => PlainFloat s ∨ ExpFloat s

def dotsText (incl : Bool) : Str := if incl then [46, 46] else [46, 46, 46]

/-- `lo..hi` or `lo...hi`; either number may be missing. -/
def rangeText (lo : Option Num) (incl : Bool) (hi : Option Num) : Str :=
  (lo.map Num.text).getD [] ++ dotsText incl ++ (hi.map Num.text).getD []

/-- `n` is at least `a`, and less than `b` or, if `incl`, equal to it. -/
def InInts (a : BitVec 64) (incl : Bool) (b n : BitVec 64) : Prop :=
  a.toInt ≤ n.toInt ∧ (n.toInt < b.toInt ∨ incl = true ∧ n.toInt = b.toInt)

/-- The same for floats, with Go's `<` and `==` -/
def InFloats (a : F64) (incl : Bool) (b x : F64) : Prop :=
  (Value.F64.lt a x = true ∨ Value.F64.eq a x = true) ∧ (Value.F64.lt x b = true ∨ incl = true ∧ Value.F64.eq x b = true)

/-! ## Lemmas -/

theorem integerType_accepts {TE : Types.Env} {l h : BitVec 64} {incl : Bool} (hne : l ≠ h ∨ incl = true)
    (hfull : incl = true ∨ ¬ (l = Types.minI64 ∧ h = Types.maxI64) ∧ ¬ (h = Types.minI64 ∧ l = Types.maxI64)) :
    ∃ T, integerType l h incl = some T ∧ ∀ v, instanceOf TE T v = true ↔ ∃ n, v = .int n ∧ (InInts l incl h n ∨ InInts h incl l n) := by
  have hm1 : Types.minI64.toInt = -9223372036854775808 := by decide
  have hm2 : Types.maxI64.toInt = 9223372036854775807 := by decide
  have key : ∀ lo hi : BitVec 64, lo.toInt < hi.toInt → (incl = true ∨ ¬ (lo = Types.minI64 ∧ hi = Types.maxI64)) →
      ∃ T, (if lo = Types.minI64 ∧ hi = Types.maxI64 then some Ty.intT else some (Ty.intRange lo hi incl)) = some T ∧
        ∀ v, instanceOf TE T v = true ↔ ∃ n, v = .int n ∧ InInts lo incl hi n := by
    intro lo hi hlt hf
    by_cases hx : lo = Types.minI64 ∧ hi = Types.maxI64
    · rw [if_pos hx]
      have hi' : incl = true := hf.resolve_right fun h => h hx
      refine ⟨_, rfl, fun v => ?_⟩
      rw [Types.inst_intT]
      constructor
      · rintro ⟨n, rfl⟩
        refine ⟨n, rfl, ?_⟩
        have := n.toInt_lt
        have := n.le_toInt
        unfold InInts
        rw [hx.1, hx.2, hm1, hm2]
        refine ⟨by omega, ?_⟩
        by_cases h : n.toInt = 9223372036854775807
        · exact .inr ⟨hi', h⟩
        · exact .inl (by omega)
      · rintro ⟨n, rfl, _⟩; exact ⟨n, rfl⟩
    · rw [if_neg hx]
      refine ⟨_, rfl, fun v => ?_⟩
      rw [Types.inst_intRange]
      unfold InInts
      constructor
      · rintro ⟨n, rfl, h1, h2⟩
        refine ⟨n, rfl, h1, ?_⟩
        cases incl <;> simp at h2 ⊢ <;> omega
      · rintro ⟨n, rfl, h1, h2⟩
        refine ⟨n, rfl, h1, ?_⟩
        cases incl <;> simp at h2 ⊢ <;> omega
  unfold integerType
  by_cases he : l = h
  · subst he
    have hi : incl = true := hne.resolve_left fun h => h rfl
    subst hi
    rw [if_pos rfl]
    refine ⟨_, rfl, fun v => ?_⟩
    rw [Types.inst_exactInt]
    unfold InInts
    constructor
    · rintro rfl; exact ⟨l, rfl, .inl ⟨by omega, .inr ⟨rfl, rfl⟩⟩⟩
    · rintro ⟨n, rfl, h⟩
      have : n.toInt = l.toInt := by omega
      rw [BitVec.toInt_inj.1 this]
  · rw [if_neg he]
    have hi : l.toInt ≠ h.toInt := fun e => he (BitVec.toInt_inj.1 e)
    by_cases hs : h.toInt < l.toInt
    · rw [show h.slt l = true by simpa [BitVec.slt] using hs]
      obtain ⟨T, h1, h2⟩ := key h l hs (hfull.imp_right (·.2))
      refine ⟨T, h1, fun v => ?_⟩
      rw [h2]
      refine exists_congr fun n => and_congr_right fun _ => ⟨.inr, fun h => h.resolve_left ?_⟩
      unfold InInts; omega
    · rw [show h.slt l = false by simpa [BitVec.slt] using hs]
      obtain ⟨T, h1, h2⟩ := key l h (by omega) (hfull.imp_right (·.1))
      refine ⟨T, h1, fun v => ?_⟩
      rw [h2]
      refine exists_congr fun n => and_congr_right fun _ => ⟨.inl, fun h => h.resolve_right ?_⟩
      unfold InInts; omega

theorem floatType_accepts {TE : Types.Env} {l h : F64} {incl : Bool} (hl : l.isNaN = false) (hh : h.isNaN = false)
    (hne : Value.F64.eq l h = false ∨ incl = true)
    (hfull : ¬ (Value.F64.eq l Types.F64.min = true ∧ Value.F64.eq h Types.F64.max = true) ∧
      ¬ (Value.F64.eq h Types.F64.min = true ∧ Value.F64.eq l Types.F64.max = true)) :
    ∃ T, floatType l h incl = some T ∧ ∀ v, instanceOf TE T v = true ↔ ∃ x, v = .float x ∧ (InFloats l incl h x ∨ InFloats h incl l x) := by
  have leq : ∀ a b : F64, Value.F64.eq a b = true ↔ a.isNaN = false ∧ b.isNaN = false ∧ a.key = b.key := Value.F64.eq_iff
  have llt : ∀ a b : F64, Value.F64.lt a b = true ↔ a.isNaN = false ∧ b.isNaN = false ∧ a.key < b.key := by
    intro a b; simp [Value.F64.lt, and_assoc]
  have key : ∀ lo hi : F64, (∀ v, instanceOf TE (.floatRange lo hi incl) v = true ↔ ∃ x, v = .float x ∧ InFloats lo incl hi x) := by
    intro lo hi v
    rw [Types.inst_floatRange]
    refine exists_congr fun x => and_congr_right fun _ => ?_
    unfold InFloats Types.F64.le
    cases incl <;> simp [and_assoc]
  unfold floatType
  by_cases he : Value.F64.eq l h = true
  · have hi : incl = true := hne.resolve_left (by simp [he])
    subst hi
    rw [if_pos he]
    refine ⟨_, rfl, fun v => ?_⟩
    rw [Types.inst_exactFloat]
    refine exists_congr fun x => and_congr_right fun _ => ?_
    unfold InFloats
    simp only [leq, llt, hl, hh, true_and] at he ⊢
    constructor
    · rintro ⟨h1, h2⟩
      exact .inl ⟨.inr ⟨h1, h2⟩, .inr ⟨h1, by omega⟩⟩
    · rintro (⟨h1, h2⟩ | ⟨h1, h2⟩)
      · have hx : x.isNaN = false := by rcases h1 with h | h <;> exact h.1
        simp only [hx, true_and] at h1 h2 ⊢
        omega
      · have hx : x.isNaN = false := by rcases h1 with h | h <;> exact h.1
        simp only [hx, true_and] at h1 h2 ⊢
        omega
  · rw [if_neg he]
    have hk : l.key ≠ h.key := fun e => he ((leq _ _).2 ⟨hl, hh, e⟩)
    by_cases hs : Value.F64.lt h l = true
    · rw [hs]
      dsimp only
      rw [if_pos rfl]
      dsimp only
      rw [if_neg hfull.2]
      refine ⟨_, rfl, fun v => ?_⟩
      rw [key]
      refine exists_congr fun x => and_congr_right fun _ => ⟨.inr, fun h => h.resolve_left ?_⟩
      unfold InFloats
      have hs' := ((llt _ _).1 hs).2.2
      simp only [leq, llt, hl, hh, true_and]
      rintro ⟨h1, h2⟩
      have hx : x.isNaN = false := by rcases h1 with h | h <;> exact h.1
      simp only [hx, true_and] at h1 h2
      omega
    · rw [Bool.not_eq_true] at hs
      rw [hs]
      simp only [Bool.false_eq_true, if_false]
      rw [if_neg hfull.1]
      refine ⟨_, rfl, fun v => ?_⟩
      rw [key]
      refine exists_congr fun x => and_congr_right fun _ => ⟨.inl, fun hor => hor.resolve_right ?_⟩
      unfold InFloats
      have hs' : ¬ h.key < l.key := fun e => by rw [(llt _ _).2 ⟨hh, hl, e⟩] at hs; cases hs
      simp only [leq, llt, hl, hh, true_and]
      rintro ⟨h1, h2⟩
      have hx : x.isNaN = false := by rcases h1 with h | h <;> exact h.1
      simp only [hx, true_and] at h1 h2
      omega

/-! ### Tokens -/

def Num.tok : Num → Token
  | .int i => ⟨formatInt i.toInt, tInteger⟩
  | .flt s => ⟨s, tFloat⟩

def dotsTok (incl : Bool) : Token := if incl then ⟨[46, 46], tDotdot⟩ else ⟨[46, 46, 46], tDotdotdot⟩

theorem Num.first_dot {n : Num} (h : n.Any) : ∃ b t, n.text = b :: t ∧ b.toNat < 0x80 ∧ b.toNat ≠ 46 := by
  cases n with
  | int i => exact formatInt_dot _
  | flt s => exact ftoa_dot (S := ⟨fun _ => false, fun _ => s, fun _ => [], fun _ => []⟩) (f := 0) h

theorem nextToken_num_end {n : Num} (h : n.Any) : nextToken (runes n.text) = .ok (n.tok, []) := by
  cases n with
  | int i => have := nextToken_format i.toInt [] (by rw [runes_nil]; trivial); rwa [List.append_nil, runes_nil] at this
  | flt s =>
    rcases h with h | h
    · have := nextToken_plain h [] (by rw [runes_nil]; trivial); rwa [List.append_nil, runes_nil] at this
    · have := nextToken_exp h [] (by rw [runes_nil]; trivial); rwa [List.append_nil, runes_nil] at this

theorem stops_dots (incl : Bool) (rest : Str) : Stops (runes (dotsText incl ++ rest)) := by
  unfold dotsText
  cases incl
  · show Stops (runes (46 :: 46 :: (46 :: rest)))
    rw [runes_ascii (by decide), runes_ascii (by decide)]
    exact ⟨by decide, by decide, by decide, by decide, by decide, fun _ => ⟨_, rfl⟩⟩
  · show Stops (runes (46 :: 46 :: rest))
    rw [runes_ascii (by decide), runes_ascii (by decide)]
    exact ⟨by decide, by decide, by decide, by decide, by decide, fun _ => ⟨_, rfl⟩⟩

theorem nextToken_num_dots {n : Num} (h : n.Plain) (incl : Bool) (rest : Str) :
    nextToken (runes (n.text ++ (dotsText incl ++ rest))) = .ok (n.tok, runes (dotsText incl ++ rest)) := by
  cases n with
  | int i => exact nextToken_format i.toInt _ (stops_dots incl rest)
  | flt s => exact nextToken_plain h _ (stops_dots incl rest)

theorem nextToken_dots (incl : Bool) {rest : Str} (hr : rest = [] ∨ ∃ b t, rest = b :: t ∧ b.toNat < 0x80 ∧ b.toNat ≠ 46) :
    nextToken (runes (dotsText incl ++ rest)) = .ok (dotsTok incl, runes rest) := by
  unfold dotsText dotsTok
  cases incl
  · show nextToken (runes (46 :: 46 :: 46 :: rest)) = .ok (⟨[46, 46, 46], tDotdotdot⟩, _)
    rw [runes_ascii (by decide), runes_ascii (by decide), runes_ascii (by decide), nextToken.eq_def]
    dsimp only
    rw [if_neg (by decide), if_neg (by decide), if_neg (by decide), if_neg (by decide), if_neg (by decide), if_pos (by decide)]
    rfl
  · show nextToken (runes (46 :: 46 :: rest)) = .ok (⟨[46, 46], tDotdot⟩, _)
    rw [runes_ascii (by decide), runes_ascii (by decide), nextToken.eq_def]
    dsimp only
    rw [if_neg (by decide), if_neg (by decide), if_neg (by decide), if_neg (by decide), if_neg (by decide), if_pos (by decide)]
    rcases hr with rfl | ⟨b, t, rfl, h2, h3⟩
    · rw [runes_nil]; rfl
    · rw [runes_ascii h2]
      simp [Text.dots, h3]

def endTok : Token := ⟨[], tEnd⟩

theorem tokens_nil : tokens (runes []) = .ok [endTok] := by rw [runes_nil]; exact tokens_end (t := ⟨[], tEnd⟩) rfl rfl

theorem tokens_num {n : Num} (h : n.Any) : tokens (runes n.text) = .ok [n.tok, endTok] := by
  rw [tokens_cons (nextToken_num_end h) (by cases n; exacts [show tInteger ≠ tEnd by decide, show tFloat ≠ tEnd by decide]), ← runes_nil, tokens_nil]; rfl

theorem tokens_dots (incl : Bool) {rest : Str} {ts : List Token} (hr : rest = [] ∨ ∃ b t, rest = b :: t ∧ b.toNat < 0x80 ∧ b.toNat ≠ 46)
    (h : tokens (runes rest) = .ok ts) : tokens (runes (dotsText incl ++ rest)) = .ok (dotsTok incl :: ts) := by
  rw [tokens_cons (nextToken_dots incl hr) (by cases incl <;> decide), h]; rfl

theorem tokens_num_dots {n : Num} (hn : n.Plain) (incl : Bool) {rest : Str} {ts : List Token}
    (hr : rest = [] ∨ ∃ b t, rest = b :: t ∧ b.toNat < 0x80 ∧ b.toNat ≠ 46) (h : tokens (runes rest) = .ok ts) :
    tokens (runes (n.text ++ (dotsText incl ++ rest))) = .ok (n.tok :: dotsTok incl :: ts) := by
  rw [tokens_cons (nextToken_num_dots hn incl rest) (by cases n; exacts [show tInteger ≠ tEnd by decide, show tFloat ≠ tEnd by decide]), tokens_dots incl hr h]; rfl

def toksOf (n : Option Num) : List Token := (n.map fun n => [n.tok]).getD []

theorem tokens_range {lo hi : Option Num} (incl : Bool) (hl : ∀ n, lo = some n → n.Plain) (hh : ∀ n, hi = some n → n.Any) :
    tokens (runes (rangeText lo incl hi)) = .ok (toksOf lo ++ dotsTok incl :: (toksOf hi ++ [endTok])) := by
  have hr : (hi.map Num.text).getD [] = [] ∨ ∃ b t, (hi.map Num.text).getD [] = b :: t ∧ b.toNat < 0x80 ∧ b.toNat ≠ 46 := by
    cases hi with
    | none => exact .inl rfl
    | some n => exact .inr (n.first_dot (hh n rfl))
  have ht : tokens (runes ((hi.map Num.text).getD [])) = .ok (toksOf hi ++ [endTok]) := by
    cases hi with
    | none => exact tokens_nil
    | some n => exact tokens_num (hh n rfl)
  unfold rangeText
  rw [List.append_assoc]
  cases lo with
  | none => exact tokens_dots incl hr ht
  | some n => exact tokens_num_dots (hl n rfl) incl hr ht

theorem dotsTok_type (incl : Bool) : ((dotsTok incl).type == tDotdot) = incl ∧ ((dotsTok incl).type = tDotdot ∨ (dotsTok incl).type = tDotdotdot) := by
  cases incl <;> decide

/-! ### Expressions without operators -/

theorem pAnyOf_ok {E : PEnv} {te : Sub} {t : Token} {ts ts' : List Token} {v : PV} (h : te t ts = .ok (v, ts')) (h1 : t.type ≠ 33) (h2 : t.type ≠ 126)
    (h3 : (peekTok ts').type ≠ 38) (h4 : (peekTok ts').type ≠ 94) (h5 : (peekTok ts').type ≠ 124) : pAnyOf E te t ts = .ok (v, ts') := by
  have hu : pUnary E te t ts = .ok (v, ts') := by
    unfold pUnary
    have e1 : (t.type == 33) = false := by simpa using h1
    have e2 : (t.type == 126) = false := by simpa using h2
    simp only [e1, Bool.false_eq_true, if_false, e2, h]
  unfold pAnyOf pOneOf pAllOf pOp
  simp only [hu, h3, h4, h5, if_false]

theorem pAnyOf_error {E : PEnv} {te : Sub} {t : Token} {ts : List Token} {e : PErr} (h : te t ts = .error e) (h1 : t.type ≠ 33) (h2 : t.type ≠ 126) :
    pAnyOf E te t ts = .error e := by
  have hu : pUnary E te t ts = .error e := by
    unfold pUnary
    have e1 : (t.type == 33) = false := by simpa using h1
    have e2 : (t.type == 126) = false := by simpa using h2
    simp only [e1, Bool.false_eq_true, if_false, e2, h]
  unfold pAnyOf pOneOf pAllOf pOp
  simp only [hu]

/-- A text that is an expression and nothing else, the end swallowed or not -/
theorem parseTokens_te {E : PEnv} {t : Token} {ts : List Token} (h1 : t.type ≠ 33) (h2 : t.type ≠ 126) :
    (∀ v ts', typeExpression E (ts.length + 2) t ts = .ok (v, ts') → ts' = [] ∨ ts' = [endTok] → parseTokens E (t :: ts) = .ok v) ∧
    ∀ e, typeExpression E (ts.length + 2) t ts = .error e → parseTokens E (t :: ts) = .error e := by
  constructor
  · intro v ts' h hts
    unfold parseTokens
    have hn : peekTok ts' = endTok := by rcases hts with rfl | rfl <;> rfl
    have := pAnyOf_ok (E := E) h h1 h2 (by rw [hn]; decide) (by rw [hn]; decide) (by rw [hn]; decide)
    rw [peekTok_cons, List.tail_cons, List.length_cons, this]
    simp only
    rw [hn, if_neg (by decide)]
  · intro e h
    unfold parseTokens
    rw [peekTok_cons, List.tail_cons, List.length_cons, pAnyOf_error (E := E) h h1 h2]

/-- What the parser makes of the numbers of a range -/
def rangeType (E : PEnv) (lo : Option Num) (incl : Bool) (hi : Option Num) : Option Ty :=
  if lo.any Num.isFlt || hi.any Num.isFlt then
    floatType ((lo.map (Num.val E)).getD Types.F64.min) ((hi.map fun n => E.parseFloat n.text).getD Types.F64.max) incl
  else
    integerType (match lo with | some (.int i) => i | _ => Types.minI64) (match hi with | some (.int i) => i | _ => Types.maxI64) incl

theorem te_range (E : PEnv) (n : Nat) (lo hi : Option Num) (incl : Bool) (h : lo ≠ none ∨ hi ≠ none) :
    ∃ t ts, toksOf lo ++ dotsTok incl :: (toksOf hi ++ [endTok]) = t :: ts ∧ t.type ≠ 33 ∧ t.type ≠ 126 ∧
      ∃ ts', (ts' = [] ∨ ts' = [endTok]) ∧ typeExpression E (n + 1) t ts = (orPanic (rangeType E lo incl hi)).map fun r => (.ty r, ts') := by
  obtain ⟨hd1, hd2⟩ := dotsTok_type incl
  have hnum : ∀ x : Num, x.tok.type ≠ 33 ∧ x.tok.type ≠ 126 := by intro x; cases x <;> simp [Num.tok, tInteger, tFloat]
  have hI : ∀ (i : BitVec 64) r, typeExpression E (n + 1) (Num.int i).tok r = pInteger E (Num.int i).tok r := fun i r => rfl
  have hF : ∀ (s : Str) r, typeExpression E (n + 1) (Num.flt s).tok r = pFloat E (Num.flt s).tok r := fun i r => rfl
  have hD : ∀ r, typeExpression E (n + 1) (dotsTok incl) r = pDotRange E (dotsTok incl) r := by cases incl <;> exact fun r => rfl
  have hT : ∀ i : BitVec 64, tokenInt (Num.int i).tok = i := fun i => tokenInt_toInt i
  have tI : ∀ i : BitVec 64, (Num.int i).tok.type = tInteger := fun _ => rfl
  have tF : ∀ s : Str, (Num.flt s).tok.type = tFloat := fun _ => rfl
  have vI : ∀ i : BitVec 64, (Num.int i).tok.value = formatInt i.toInt := fun _ => rfl
  have vF : ∀ s : Str, (Num.flt s).tok.value = s := fun _ => rfl
  have nIF : ¬ tFloat = tInteger := by decide
  have nFI : ¬ tInteger = tFloat := by decide
  have nE1 : ¬ endTok.type = tInteger := by decide
  have nE2 : ¬ endTok.type = tFloat := by decide
  cases lo with
  | none =>
    cases hi with
    | none => simp at h
    | some y =>
      refine ⟨dotsTok incl, [y.tok, endTok], rfl, by cases incl <;> decide, by cases incl <;> decide, [endTok], .inr rfl, ?_⟩
      rw [hD, pDotRange]
      simp only [peekTok_cons, hd1, List.tail_cons]
      cases y with
      | int j => rw [if_pos (tI j), hT]; rfl
      | flt s => rw [if_neg (by rw [tF]; exact nIF), if_pos (tF s)]; rfl
  | some x =>
    cases x with
    | int i =>
      cases hi with
      | none =>
        refine ⟨_, [dotsTok incl, endTok], rfl, (hnum _).1, (hnum _).2, [endTok], .inr rfl, ?_⟩
        rw [hI, pInteger]
        simp only [peekTok_cons, hd1, List.tail_cons]
        rw [if_pos hd2, if_neg nE1, if_neg nE2, hT]; rfl
      | some y =>
        refine ⟨_, [dotsTok incl, y.tok, endTok], rfl, (hnum _).1, (hnum _).2, [endTok], .inr rfl, ?_⟩
        rw [hI, pInteger]
        simp only [peekTok_cons, hd1, List.tail_cons]
        rw [if_pos hd2]
        cases y with
        | int j => rw [if_pos (tI j), hT, hT]; rfl
        | flt s => rw [if_neg (by rw [tF]; exact nIF), if_pos (tF s), hT]; rfl
    | flt u =>
      cases hi with
      | none =>
        refine ⟨_, [dotsTok incl, endTok], rfl, (hnum _).1, (hnum _).2, [], .inl rfl, ?_⟩
        rw [hF, pFloat]
        simp only [peekTok_cons, hd1, List.tail_cons]
        rw [if_pos hd2, if_neg (by simp [nE1, nE2])]; rfl
      | some y =>
        refine ⟨_, [dotsTok incl, y.tok, endTok], rfl, (hnum _).1, (hnum _).2, [endTok], .inr rfl, ?_⟩
        rw [hF, pFloat]
        simp only [peekTok_cons, hd1, List.tail_cons]
        rw [if_pos hd2]
        cases y with
        | int j => rw [if_pos (Or.inl (tI j))]; rfl
        | flt s => rw [if_pos (Or.inr (tF s))]; rfl

theorem parse_range (E : PEnv) (lo hi : Option Num) (incl : Bool) (h : lo ≠ none ∨ hi ≠ none) (hl : ∀ n, lo = some n → n.Plain)
    (hh : ∀ n, hi = some n → n.Any) : parse E (rangeText lo incl hi) = (orPanic (rangeType E lo incl hi)).map .ty := by
  unfold parse
  rw [tokens_range incl hl hh]
  have hte := fun n => te_range E n lo hi incl h
  generalize toksOf lo ++ dotsTok incl :: (toksOf hi ++ [endTok]) = l at hte
  cases l with
  | nil => obtain ⟨t, ts, h, _⟩ := hte 0; cases h
  | cons t ts =>
    obtain ⟨t', ts', he, h1, h2, u, hu, ht⟩ := hte (ts.length + 1)
    cases he
    show parseTokens E (t :: ts) = _
    cases hr : rangeType E lo incl hi with
    | none => rw [hr] at ht; exact (parseTokens_te h1 h2).2 _ ht
    | some r => rw [hr] at ht; exact (parseTokens_te h1 h2).1 _ _ ht hu

end Verif.Text
