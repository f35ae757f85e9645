import Verif.Text.Domain
import Verif.Text.Number
/-!
# Parsing the tokens of a printed type
-/
set_option autoImplicit false
set_option linter.unusedVariables false
set_option linter.unusedSimpArgs false
namespace Verif.Text
open Verif.Value (Str Val F64)
open Verif.Types (Ty Oid maxInt)

/-- What a printed type begins with -/
def Start (n : Nat) : Prop :=
  n ∈ [tIdentifier, tInteger, tFloat, tString, tRegexp, tDotdot, tDotdotdot, 123, 40, 91, 33, 126]

/-- It begins with a token that can begin a type; the token after that is no `:` and no `?` -/
def HeadOk (ts : List Token) : Prop :=
  ∃ t ts', ts = t :: ts' ∧ Start t.type ∧ ∀ x, ts'.head? = some x → x.type ≠ 58 ∧ x.type ≠ 63

structure AtTe (E : PEnv) (n : Nat) (ts : List Token) (v : PV) : Prop where
  head : ∃ t ts', ts = t :: ts' ∧ Start t.type ∧ t.type ≠ 33 ∧ t.type ≠ 126 ∧ ∀ x, ts'.head? = some x → x.type ≠ 58 ∧ x.type ≠ 63
  parses : Parses (typeExpression E n) Fol ts v

structure AtUn (E : PEnv) (n : Nat) (ts : List Token) (v : PV) : Prop where
  head : HeadOk ts
  parses : Parses (pUnary E (typeExpression E n)) Fol ts v

structure AtAny (E : PEnv) (n : Nat) (ts : List Token) (v : PV) : Prop where
  head : HeadOk ts
  parses : Parses (pAnyOf E (typeExpression E n)) FolAny ts v

theorem AtTe.un {E : PEnv} {n : Nat} {ts : List Token} {v : PV} (h : AtTe E n ts v) : AtUn E n ts v := by
  obtain ⟨t, ts', rfl, h1, h2, h3, h4⟩ := h.head
  exact ⟨⟨t, ts', rfl, h1, h4⟩, pUnary_plain h.parses h2 h3⟩

theorem AtUn.any {E : PEnv} {n : Nat} {ts : List Token} {v : PV} (h : AtUn E n ts v) : AtAny E n ts v :=
  ⟨h.head, pAnyOf_of (pOneOf_of (pAllOf_of h.parses))⟩

theorem fol_ne {n : Nat} (h : Fol n) : n ≠ 61 ∧ n ≠ 91 ∧ n ≠ tDotdot ∧ n ≠ tDotdotdot ∧ n ≠ tInteger ∧ n ≠ tFloat ∧ isExpressionEnd n = true := by
  unfold Fol at h
  simp only [List.mem_cons, List.not_mem_nil, or_false] at h
  rcases h with rfl | rfl | rfl | rfl | rfl | rfl | rfl | rfl | rfl | rfl <;> decide

theorem folAny_fol {n : Nat} (h : FolAny n) : Fol n := h.1.1.1

theorem folAny_close : FolAny 125 ∧ FolAny 93 ∧ FolAny 41 ∧ FolAny 44 ∧ FolAny 58 ∧ FolAny 63 ∧ FolAny 0 := by
  simp [FolAny, FolOne, FolAll, Fol]

/-! ## Leaves -/

theorem te_word {E : PEnv} {n : Nat} {s : Str} {rest : List Token} (h : (peekTok rest).type ≠ 61) :
    typeExpression E (n + 1) ⟨s, tIdentifier⟩ rest = pIdentifier E (typeExpression E n) ⟨s, tIdentifier⟩ rest := by
  rw [typeExpression]
  exact if_neg h

theorem at_word {E : PEnv} {n : Nat} (hn : 1 ≤ n) {s : Str} {v : PV}
    (h : ∀ rest te, Fol (peekTok rest).type → pIdentifier E te ⟨s, tIdentifier⟩ rest = .ok (v, rest)) : AtTe E n [⟨s, tIdentifier⟩] v := by
  refine ⟨⟨_, [], rfl, by simp [Start], show tIdentifier ≠ 33 by decide, show tIdentifier ≠ 126 by decide, by simp⟩, ?_⟩
  intro rest hr
  obtain ⟨m, rfl⟩ : ∃ m, n = m + 1 := ⟨n - 1, by omega⟩
  rw [List.cons_append, List.nil_append, peekTok_cons, List.tail_cons, te_word (fol_ne hr).1]
  exact h rest _ hr

theorem at_str {E : PEnv} {n : Nat} (hn : 1 ≤ n) (s : Str) : AtTe E n [⟨s, tString⟩] (.val (.str s)) := by
  refine ⟨⟨_, [], rfl, by simp [Start], show tString ≠ 33 by decide, show tString ≠ 126 by decide, by simp⟩, ?_⟩
  intro rest hr
  obtain ⟨m, rfl⟩ : ∃ m, n = m + 1 := ⟨n - 1, by omega⟩
  rfl

theorem at_rx {E : PEnv} {n : Nat} (hn : 1 ≤ n) {s : Str} (h : E.compiles s = true) : AtTe E n [⟨s, tRegexp⟩] (.ty (.pattern s)) := by
  refine ⟨⟨_, [], rfl, by simp [Start], show tRegexp ≠ 33 by decide, show tRegexp ≠ 126 by decide, by simp⟩, ?_⟩
  intro rest hr
  obtain ⟨m, rfl⟩ : ∃ m, n = m + 1 := ⟨n - 1, by omega⟩
  rw [List.cons_append, List.nil_append, peekTok_cons, List.tail_cons, typeExpression]
  exact if_pos h

theorem tokenInt_format {v : Int} (h : - 2 ^ 63 ≤ v) (h' : v < 2 ^ 63) : tokenInt ⟨formatInt v, tInteger⟩ = BitVec.ofInt 64 v := by
  unfold tokenInt; rw [parseInt_format h h']

theorem tokenInt_toInt (v : BitVec 64) : tokenInt ⟨formatInt v.toInt, tInteger⟩ = v := by
  have h1 := BitVec.toInt_lt (x := v)
  have h2 := BitVec.le_toInt v
  rw [tokenInt_format (by omega) (by omega), BitVec.ofInt_toInt]

theorem at_int' {E : PEnv} {n : Nat} (hn : 1 ≤ n) {v : Int} (h : - 2 ^ 63 ≤ v) (h' : v < 2 ^ 63) :
    AtTe E n [⟨formatInt v, tInteger⟩] (.val (.int (BitVec.ofInt 64 v))) := by
  refine ⟨⟨_, [], rfl, by simp [Start], show tInteger ≠ 33 by decide, show tInteger ≠ 126 by decide, by simp⟩, ?_⟩
  intro rest hr
  obtain ⟨m, rfl⟩ : ∃ m, n = m + 1 := ⟨n - 1, by omega⟩
  rw [List.cons_append, List.nil_append, peekTok_cons, List.tail_cons]
  have h0 := fol_ne hr
  have e : typeExpression E (m + 1) ⟨formatInt v, tInteger⟩ rest = pInteger E ⟨formatInt v, tInteger⟩ rest := rfl
  rw [e]
  unfold pInteger
  rw [tokenInt_format h h']
  dsimp only
  rw [if_neg (by simp only [h0, or_self, not_false_eq_true])]

theorem at_int {E : PEnv} {n : Nat} (hn : 1 ≤ n) (v : BitVec 64) :
    AtTe E n [⟨formatInt v.toInt, tInteger⟩] (.val (.int v)) := by
  have h1 := BitVec.toInt_lt (x := v)
  have h2 := BitVec.le_toInt v
  have := at_int' (E := E) hn (v := v.toInt) (by omega) (by omega)
  rwa [BitVec.ofInt_toInt] at this

theorem at_float {E : PEnv} {S : SEnv} {n : Nat} (hn : 1 ≤ n) {f : F64} (h : E.parseFloat (S.ftoa f) = f) :
    AtTe E n [⟨S.ftoa f, tFloat⟩] (.val (.float f)) := by
  refine ⟨⟨_, [], rfl, by simp [Start], show tFloat ≠ 33 by decide, show tFloat ≠ 126 by decide, by simp⟩, ?_⟩
  intro rest hr
  obtain ⟨m, rfl⟩ : ∃ m, n = m + 1 := ⟨n - 1, by omega⟩
  rw [List.cons_append, List.nil_append, peekTok_cons, List.tail_cons]
  have h0 := fol_ne hr
  have e : typeExpression E (m + 1) ⟨S.ftoa f, tFloat⟩ rest = pFloat E ⟨S.ftoa f, tFloat⟩ rest := rfl
  rw [e]
  unfold pFloat
  dsimp only
  rw [h, if_neg (by simp only [h0, or_self, not_false_eq_true])]

/-! ## Ranges -/

theorem integerType_lt {min max : BitVec 64} {inclusive : Bool} (h : min.slt max = true) (h' : ¬ (min = Types.minI64 ∧ max = Types.maxI64)) :
    Types.integerType min max inclusive = some (.intRange min max inclusive) := by
  unfold Types.integerType
  have hne : min ≠ max := by rintro rfl; simp [BitVec.slt] at h
  have hs : max.slt min = false := by simp [BitVec.slt] at h ⊢; omega
  rw [if_neg hne, hs]
  simp [h']

theorem at_intRange {E : PEnv} {S : SEnv} {n : Nat} (hn : 1 ≤ n) {min max : BitVec 64} {inclusive : Bool} (h : min.slt max = true)
    (h' : ¬ (min = Types.minI64 ∧ max = Types.maxI64)) :
    AtTe E n (toks S (intRangePieces min max inclusive)) (.ty (.intRange min max inclusive)) := by
  have hi := integerType_lt (inclusive := inclusive) h h'
  obtain ⟨m, rfl⟩ : ∃ m, n = m + 1 := ⟨n - 1, by omega⟩
  have hdot : ∀ i : Bool, Piece.tok S (if i then .dots2 else .dots3) = if i then ⟨[46, 46], tDotdot⟩ else ⟨[46, 46, 46], tDotdotdot⟩ := by
    intro i; cases i <;> rfl
  unfold intRangePieces toks
  by_cases hmin : min = Types.minI64
  · have hmax : max ≠ Types.maxI64 := fun e => h' ⟨hmin, e⟩
    rw [if_neg (by simp [hmin]), if_pos hmax]
    simp only [List.nil_append, List.cons_append, List.map_cons, List.map_nil, hdot]
    refine ⟨⟨_, _, rfl, ?_, ?_, ?_, ?_⟩, ?_⟩
    · cases inclusive <;> simp [Start]
    · cases inclusive <;> simp [tDotdot, tDotdotdot]
    · cases inclusive <;> simp [tDotdot, tDotdotdot]
    · simp [Piece.tok, tInteger]
    · intro rest hr
      have e : typeExpression E (m + 1) (if inclusive then ⟨[46, 46], tDotdot⟩ else ⟨[46, 46, 46], tDotdotdot⟩)
          (Piece.tok S (.int max.toInt) :: rest) =
          pDotRange E (if inclusive then ⟨[46, 46], tDotdot⟩ else ⟨[46, 46, 46], tDotdotdot⟩) (Piece.tok S (.int max.toInt) :: rest) := by
        cases inclusive <;> rfl
      rw [List.cons_append, peekTok_cons, List.tail_cons, List.cons_append, List.nil_append, e]
      unfold pDotRange
      have e2 : ((if inclusive then (⟨[46, 46], tDotdot⟩ : Token) else ⟨[46, 46, 46], tDotdotdot⟩).type == tDotdot) = inclusive := by
        cases inclusive <;> rfl
      rw [e2, peekTok_cons]
      dsimp only [Piece.tok]
      rw [if_pos rfl, tokenInt_toInt, ← hmin, hi]
      rfl
  · rw [if_pos hmin]
    have e2 : ((if inclusive then (⟨[46, 46], tDotdot⟩ : Token) else ⟨[46, 46, 46], tDotdotdot⟩).type == tDotdot) = inclusive := by
      cases inclusive <;> rfl
    have e3 : (if inclusive then (⟨[46, 46], tDotdot⟩ : Token) else ⟨[46, 46, 46], tDotdotdot⟩).type = tDotdot ∨
        (if inclusive then (⟨[46, 46], tDotdot⟩ : Token) else ⟨[46, 46, 46], tDotdotdot⟩).type = tDotdotdot := by
      cases inclusive <;> simp
    have e4 : (if inclusive then (⟨[46, 46], tDotdot⟩ : Token) else ⟨[46, 46, 46], tDotdotdot⟩).type ≠ 58 ∧
        (if inclusive then (⟨[46, 46], tDotdot⟩ : Token) else ⟨[46, 46, 46], tDotdotdot⟩).type ≠ 63 := by
      cases inclusive <;> simp [tDotdot, tDotdotdot]
    simp only [List.nil_append, List.cons_append, List.map_cons, List.map_nil, hdot]
    refine ⟨⟨_, _, rfl, by simp [Start, Piece.tok], show tInteger ≠ 33 by decide, show tInteger ≠ 126 by decide, ?_⟩, ?_⟩
    · intro x hx
      simp only [List.head?_cons, Option.some.injEq] at hx
      rw [← hx]; exact e4
    · intro rest hr
      rw [List.cons_append, peekTok_cons, List.tail_cons, List.cons_append]
      have e : ∀ r, typeExpression E (m + 1) (Piece.tok S (.int min.toInt)) r = pInteger E ⟨formatInt min.toInt, tInteger⟩ r := fun r => rfl
      rw [e]
      unfold pInteger
      rw [tokenInt_toInt]
      dsimp only
      rw [peekTok_cons, if_pos e3, e2, List.tail_cons]
      by_cases hmax : max = Types.maxI64
      · rw [if_neg (show ¬ (max ≠ Types.maxI64) by simp [hmax])]
        simp only [List.map_nil, List.nil_append]
        have h0 := fol_ne hr
        rw [if_neg h0.2.2.2.2.1, if_neg h0.2.2.2.2.2.1, ← hmax, hi]
        rfl
      · rw [if_pos hmax]
        simp only [List.map_cons, List.map_nil, List.cons_append, List.nil_append, peekTok_cons, Piece.tok, List.tail_cons]
        rw [if_pos trivial, tokenInt_toInt, hi]
        rfl

theorem floatType_lt {min max : F64} {inclusive : Bool} (h : Value.F64.lt min max = true) (h' : Value.F64.eq max Types.F64.max = false) :
    Types.floatType min max inclusive = some (.floatRange min max inclusive) := by
  unfold Types.floatType
  have h1 : Value.F64.eq min max = false := by
    unfold Value.F64.lt at h; unfold Value.F64.eq; simp at h ⊢; intro _ _; omega
  have h2 : Value.F64.lt max min = false := by
    unfold Value.F64.lt at h ⊢; simp at h ⊢; intro _ _; omega
  rw [h1, h2]
  simp [h']

theorem at_floatRange {E : PEnv} {S : SEnv} {n : Nat} (hn : 1 ≤ n) {min max : F64} {inclusive : Bool}
    (h : RtTy S E (.floatRange min max inclusive)) :
    AtTe E n (toks S (floatRangePieces min max inclusive)) (.ty (.floatRange min max inclusive)) := by
  unfold RtTy at h
  obtain ⟨hlt, hmin, hmax, hf⟩ := h
  have hi := floatType_lt (inclusive := inclusive) hlt hmax
  obtain ⟨m, rfl⟩ : ∃ m, n = m + 1 := ⟨n - 1, by omega⟩
  have hdot : ∀ i : Bool, Piece.tok S (if i then .dots2 else .dots3) = if i then ⟨[46, 46], tDotdot⟩ else ⟨[46, 46, 46], tDotdotdot⟩ := by
    intro i; cases i <;> rfl
  have e2 : ((if inclusive then (⟨[46, 46], tDotdot⟩ : Token) else ⟨[46, 46, 46], tDotdotdot⟩).type == tDotdot) = inclusive := by
    cases inclusive <;> rfl
  have e3 : (if inclusive then (⟨[46, 46], tDotdot⟩ : Token) else ⟨[46, 46, 46], tDotdotdot⟩).type = tDotdot ∨
      (if inclusive then (⟨[46, 46], tDotdot⟩ : Token) else ⟨[46, 46, 46], tDotdotdot⟩).type = tDotdotdot := by
    cases inclusive <;> simp
  have e4 : (if inclusive then (⟨[46, 46], tDotdot⟩ : Token) else ⟨[46, 46, 46], tDotdotdot⟩).type ≠ 58 ∧
      (if inclusive then (⟨[46, 46], tDotdot⟩ : Token) else ⟨[46, 46, 46], tDotdotdot⟩).type ≠ 63 := by
    cases inclusive <;> simp [tDotdot, tDotdotdot]
  unfold floatRangePieces toks
  rw [hmax, if_pos (show (!false) = true from rfl)]
  rcases hmin with hmin | ⟨hmin, _, hpm⟩
  · rw [if_neg (by rw [hmin]; decide)]
    simp only [List.nil_append, List.cons_append, List.map_cons, List.map_nil, hdot]
    refine ⟨⟨_, _, rfl, ?_, ?_, ?_, ?_⟩, ?_⟩
    · cases inclusive <;> simp [Start]
    · cases inclusive <;> simp [tDotdot, tDotdotdot]
    · cases inclusive <;> simp [tDotdot, tDotdotdot]
    · simp [Piece.tok, tFloat]
    · intro rest hr
      have e : typeExpression E (m + 1) (if inclusive then ⟨[46, 46], tDotdot⟩ else ⟨[46, 46, 46], tDotdotdot⟩)
          (Piece.tok S (.float max) :: rest) =
          pDotRange E (if inclusive then ⟨[46, 46], tDotdot⟩ else ⟨[46, 46, 46], tDotdotdot⟩) (Piece.tok S (.float max) :: rest) := by
        cases inclusive <;> rfl
      rw [List.cons_append, peekTok_cons, List.tail_cons, List.cons_append, List.nil_append, e]
      unfold pDotRange
      rw [e2, peekTok_cons]
      dsimp only [Piece.tok]
      rw [if_neg (by decide), if_pos rfl, hf.2, ← hmin, hi]
      rfl
  · rw [hmin, if_pos (show (!false) = true from rfl)]
    simp only [List.nil_append, List.cons_append, List.map_cons, List.map_nil, hdot]
    refine ⟨⟨_, _, rfl, by simp [Start, Piece.tok], show tFloat ≠ 33 by decide, show tFloat ≠ 126 by decide, ?_⟩, ?_⟩
    · intro x hx
      simp only [List.head?_cons, Option.some.injEq] at hx
      rw [← hx]; exact e4
    · intro rest hr
      rw [List.cons_append, peekTok_cons, List.tail_cons, List.cons_append]
      have e : ∀ r, typeExpression E (m + 1) (Piece.tok S (.float min)) r = pFloat E ⟨S.ftoa min, tFloat⟩ r := fun r => rfl
      rw [e]
      unfold pFloat
      dsimp only
      rw [hpm, peekTok_cons, if_pos e3, e2, List.tail_cons]
      simp only [List.cons_append, List.nil_append, peekTok_cons, Piece.tok, List.tail_cons]
      rw [if_pos (Or.inr trivial), hf.2, hi]
      rfl

/-! ## Sizes -/

def sizeItems (min max : Int) : List (List Token × PV) :=
  ([⟨formatInt min, tInteger⟩], .val (.int (BitVec.ofInt 64 min))) ::
    if max ≠ maxInt then [([⟨formatInt max, tInteger⟩], .val (.int (BitVec.ofInt 64 max)))] else []

theorem sizeItems_toks (S : SEnv) (min max : Int) : toks S (sizeBoundaries min max) = joinToks (chTok 44) ((sizeItems min max).map (·.1)) := by
  unfold sizeBoundaries sizeItems toks
  split <;> rfl

theorem maxInt_lt : maxInt < 2 ^ 63 := by decide

theorem pParams_sizes {E : PEnv} {S : SEnv} {n : Nat} (hn : 1 ≤ n) {min max : Int} (h : SizesOk min max) (rest : List Token) :
    pParams E (typeExpression E n) (toks S (sizeBoundaries min max) ++ chTok 93 :: rest) =
      .ok (.val (.int (BitVec.ofInt 64 min)) :: (if max ≠ maxInt then [.val (.int (BitVec.ofInt 64 max))] else []), rest) := by
  have hm := maxInt_lt
  obtain ⟨h1, h2, h3⟩ := h
  have hi : ∀ v : Int, 0 ≤ v → v ≤ maxInt → Parses (pAnyOf E (typeExpression E n)) FolAny [⟨formatInt v, tInteger⟩] (.val (.int (BitVec.ofInt 64 v))) ∧
      ∃ t ts', [(⟨formatInt v, tInteger⟩ : Token)] = t :: ts' ∧ t.type ≠ 93 ∧ ∀ x, ts'.head? = some x → x.type ≠ 58 ∧ x.type ≠ 63 :=
    fun v hv hv' => ⟨(at_int' hn (by omega) (by omega)).un.any.parses, _, [], rfl, show tInteger ≠ 93 by decide, by simp⟩
  have hl := paramsLoop_items (E := E) (te := typeExpression E n) rest (sizeItems min max) (by
    intro x hx
    unfold sizeItems at hx
    rcases List.mem_cons.1 hx with rfl | hx
    · exact hi min h1 (by omega)
    · split at hx
      · rw [List.mem_singleton.1 hx]; exact hi max (by omega) h3
      · cases hx) ((toks S (sizeBoundaries min max) ++ chTok 93 :: rest).length + 1) [] (by
        rw [sizeItems_toks S]
        have := joinToks_length (chTok 44) ((sizeItems min max).map (·.1))
        simp only [List.length_map, List.length_append, List.length_cons] at this ⊢
        omega)
  unfold pParams
  rw [sizeItems_toks S] at hl ⊢
  rw [hl, List.nil_append]
  have : (sizeItems min max).map (fun x => Elem.one x.2) = ((sizeItems min max).map (·.2)).map .one := by simp
  rw [this]
  dsimp only [Except.map]
  rw [elemVals_ones]
  unfold sizeItems
  split <;> rfl

theorem toInt_size {v : Int} (h : 0 ≤ v) (h' : v ≤ maxInt) : (BitVec.ofInt 64 v).toInt = v := by
  have hm := maxInt_lt
  rw [BitVec.toInt_ofInt]
  exact Int.bmod_eq_of_le (by omega) (by omega)

/-! ## Brackets -/

theorem at_paren {E : PEnv} {n : Nat} {ts : List Token} {v : PV} (h : AtAny E n ts v) :
    AtTe E (n + 1) (chTok 40 :: (ts ++ [chTok 41])) v := by
  obtain ⟨t, ts', hts, hst, hx⟩ := h.head
  refine ⟨⟨_, _, rfl, by simp [Start, chTok], show 40 ≠ 33 by decide, show 40 ≠ 126 by decide, ?_⟩, ?_⟩
  · intro x hx
    rw [hts] at hx
    simp only [List.cons_append, List.head?_cons, Option.some.injEq] at hx
    subst hx
    constructor <;> intro e <;> rw [e] at hst <;> simp [Start, tIdentifier, tInteger, tFloat, tString, tRegexp, tDotdot, tDotdotdot] at hst
  · intro rest hr
    have h1 := h.parses (chTok 41 :: rest) folAny_close.2.2.1
    have e : ts ++ [chTok 41] ++ rest = ts ++ chTok 41 :: rest := by simp
    rw [List.cons_append, peekTok_cons, List.tail_cons, e]
    have e2 : ∀ r, typeExpression E (n + 1) (chTok 40) r = match pAnyOf E (typeExpression E n) (peekTok r) r.tail with
      | .error e => .error e
      | .ok (v, ts) => if (peekTok ts).type ≠ 41 then .error (.syntax (peekTok ts)) else .ok (v, ts.tail) := fun r => rfl
    rw [e2, h1]
    rfl

theorem headStart {n : Nat} (h : Start n) : n ≠ 58 ∧ n ≠ 63 ∧ n ≠ 125 ∧ n ≠ 93 ∧ n ≠ 44 ∧ n ≠ 124 ∧ n ≠ 38 ∧ n ≠ 94 := by
  unfold Start at h
  simp only [List.mem_cons, List.not_mem_nil, or_false] at h
  rcases h with rfl | rfl | rfl | rfl | rfl | rfl | rfl | rfl | rfl | rfl | rfl | rfl <;> decide

theorem te_list {E : PEnv} {n : Nat} (r : List Token) : typeExpression E (n + 1) (chTok 123) r = pList E (typeExpression E n) 125 r := rfl

theorem joinToks_head (sep : Token) (x : List Token) (xs : List (List Token)) (t : Token) (ts : List Token) (h : x = t :: ts) :
    ∃ r, joinToks sep (x :: xs) = t :: r := by
  subst h
  cases xs with
  | nil => exact ⟨_, rfl⟩
  | cons y ys => exact ⟨_, rfl⟩

theorem brace_head {E : PEnv} {ts : List Token} (h : ∀ x, ts.head? = some x → x.type ≠ 58 ∧ x.type ≠ 63) :
    ∃ t ts', chTok 123 :: (ts ++ [chTok 125]) = t :: ts' ∧ Start t.type ∧ t.type ≠ 33 ∧ t.type ≠ 126 ∧
      ∀ x, ts'.head? = some x → x.type ≠ 58 ∧ x.type ≠ 63 := by
  refine ⟨_, _, rfl, by simp [Start, chTok], show 123 ≠ 33 by decide, show 123 ≠ 126 by decide, ?_⟩
  intro x hx
  cases ts with
  | nil => simp only [List.nil_append, List.head?_cons, Option.some.injEq] at hx; subst hx; decide
  | cons a ts => exact h x hx

/-- A tuple or an array -/
theorem at_tuple {E : PEnv} {n : Nat} {items : List (List Token × PV)} (hne : items ≠ [])
    (h : ∀ x ∈ items, AtAny E n x.1 x.2 ∧ (peekTok x.1).type ≠ tDotdotdot) {t : Ty}
    (hm : Types.newTupleType O (items.map fun x => x.2.asType) false = some t) :
    AtTe E (n + 1) (chTok 123 :: (joinToks (chTok 44) (items.map (·.1)) ++ [chTok 125])) (.ty t) := by
  refine ⟨brace_head (E := E) ?_, ?_⟩
  · intro x hx
    cases items with
    | nil => exact absurd rfl hne
    | cons y ys =>
      obtain ⟨a, as, ha, hs, _⟩ := (h y List.mem_cons_self).1.head
      obtain ⟨r, hr⟩ := joinToks_head (chTok 44) y.1 (ys.map (·.1)) a as ha
      rw [List.map_cons, hr] at hx
      simp only [List.head?_cons, Option.some.injEq] at hx
      subst hx
      exact ⟨(headStart hs).1, (headStart hs).2.1⟩
  · intro rest hr
    have e : joinToks (chTok 44) (items.map (·.1)) ++ [chTok 125] ++ rest = joinToks (chTok 44) (items.map (·.1)) ++ chTok 125 :: rest := by simp
    rw [List.cons_append, peekTok_cons, List.tail_cons, e, te_list]
    unfold pList
    rw [listLoop_items (chTok 125) rfl (chTok 44) rfl rest items hne ?_ _ _ _ ?_ (by decide)]
    · dsimp only
      rw [if_pos (by simpa using hne), if_neg (by decide)]
      unfold makeTuple
      have : (items.map fun x => Elem.one x.2) = (items.map (·.2)).map .one := by simp
      rw [List.nil_append, this, elemTypes_ones]
      simp only [Bool.false_eq_true, if_false, List.map_map]
      have e3 : (PV.asType ∘ fun x : List Token × PV => x.2) = fun x => x.2.asType := rfl
      rw [e3, hm]
      rfl
    · intro x hx
      obtain ⟨h1, h2⟩ := h x hx
      obtain ⟨a, as, ha, hs, hh⟩ := h1.head
      refine ⟨h1.parses, a, as, ha, ?_, (headStart hs).2.2.1, (headStart hs).2.2.2.1, hh⟩
      rw [ha] at h2; exact h2
    · have := joinToks_length (chTok 44) (items.map (·.1))
      simp only [List.length_map, List.length_append, List.length_cons] at this ⊢
      omega

theorem lastElement_append {ts : List Ty} {t e : Ty} (h : lastElement [t] = some [e]) : lastElement (ts ++ [t]) = some (ts ++ [e]) := by
  induction ts with
  | nil => exact h
  | cons a ts ih =>
    cases ts with
    | nil =>
      rw [List.cons_append, List.nil_append, lastElement]
      · rw [h]; rfl
      · simp
      · simp
      · simp
    | cons b bs =>
      rw [List.cons_append, List.cons_append, lastElement]
      · rw [List.cons_append] at ih; rw [ih]; rfl
      · simp
      · simp
      · simp

theorem newArrayType_last (e : Ty) : ∃ a, Types.newArrayType O e 0 maxInt = some a ∧ lastElement [a] = some [e] := by
  unfold Types.newArrayType
  have hc : Types.clampSizes 0 maxInt = (0, maxInt) := by decide
  rw [hc]
  dsimp only
  by_cases h : e.isAny = true
  · rw [if_pos ⟨rfl, rfl, h⟩]
    refine ⟨_, rfl, ?_⟩
    cases e <;> simp [Ty.isAny] at h
    rfl
  · rw [if_neg (by simp [h]), if_neg (fun hh => absurd hh.1 (by decide))]
    exact ⟨_, rfl, rfl⟩

/-- A variadic tuple -/
theorem at_variadic {E : PEnv} {S : SEnv} {n : Nat} {items : List (List Token × PV)} {last : List Token × PV}
    (h : ∀ x ∈ items, AtAny E n x.1 x.2 ∧ (peekTok x.1).type ≠ tDotdotdot) (hl : AtAny E n last.1 last.2) {t : Ty}
    (hm : Types.newTupleType O (items.map (fun x => x.2.asType) ++ [last.2.asType]) true = some t) :
    AtTe E (n + 1) (chTok 123 :: (joinToks (chTok 44) (items.map (·.1) ++ [Piece.tok S .dots3 :: last.1]) ++ [chTok 125])) (.ty t) := by
  refine ⟨brace_head (E := E) ?_, ?_⟩
  · intro x hx
    cases items with
    | nil =>
      simp only [List.map_nil, List.nil_append, joinToks, List.head?_cons, Option.some.injEq] at hx
      subst hx; exact ⟨show tDotdotdot ≠ 58 by decide, show tDotdotdot ≠ 63 by decide⟩
    | cons y ys =>
      obtain ⟨a, as, ha, hs, _⟩ := (h y List.mem_cons_self).1.head
      obtain ⟨r, hr⟩ := joinToks_head (chTok 44) y.1 (ys.map (·.1) ++ [Piece.tok S .dots3 :: last.1]) a as ha
      rw [List.map_cons, List.cons_append, hr] at hx
      simp only [List.head?_cons, Option.some.injEq] at hx
      subst hx
      exact ⟨(headStart hs).1, (headStart hs).2.1⟩
  · intro rest hr
    have e : joinToks (chTok 44) (items.map (·.1) ++ [Piece.tok S .dots3 :: last.1]) ++ [chTok 125] ++ rest =
        joinToks (chTok 44) (items.map (·.1) ++ [Piece.tok S .dots3 :: last.1]) ++ chTok 125 :: rest := by simp
    rw [List.cons_append, peekTok_cons, List.tail_cons, e, te_list]
    unfold pList
    obtain ⟨et, het, hle⟩ := newArrayType_last last.2.asType
    obtain ⟨a, as, ha, hs, hh⟩ := hl.head
    rw [listLoop_variadic (chTok 125) rfl (chTok 44) rfl (Piece.tok S .dots3) rfl rest last hl.parses
      ⟨a, as, ha, (headStart hs).2.2.1⟩ het items ?_ _ _ _ ?_ (by decide)]
    · dsimp only
      rw [if_pos (by simp), if_neg (by decide)]
      unfold makeTuple
      have : (items.map fun x => Elem.one x.2) ++ [Elem.one (.ty et)] = (items.map (fun x => x.2) ++ [PV.ty et]).map Elem.one := by simp
      rw [List.nil_append, this, elemTypes_ones]
      simp only [if_true, List.map_append, List.map_cons, List.map_nil, List.map_map]
      have e4 : (PV.ty et).asType = et := rfl
      rw [e4, lastElement_append hle]
      have e3 : (PV.asType ∘ fun x : List Token × PV => x.2) = fun x => x.2.asType := rfl
      rw [e3]
      dsimp only
      unfold Types.variadicTupleType
      rw [if_neg (by simp), hm]
      rfl
    · intro x hx
      obtain ⟨h1, h2⟩ := h x hx
      obtain ⟨a, as, ha, hs, hh⟩ := h1.head
      refine ⟨h1.parses, a, as, ha, ?_, (headStart hs).2.2.1, (headStart hs).2.2.2.1, hh⟩
      rw [ha] at h2; exact h2
    · have := joinToks_length (chTok 44) (items.map (·.1) ++ [Piece.tok S .dots3 :: last.1])
      simp only [List.length_map, List.length_append, List.length_cons, List.length_nil] at this ⊢
      omega

theorem hte_str {E : PEnv} {n : Nat} (hn : 1 ≤ n) (s : Str) : Parses (typeExpression E n) Fol [⟨s, tString⟩] (.val (.str s)) := (at_str hn s).parses

/-- A field whose key and value are read -/
structure FieldOk (E : PEnv) (n : Nat) (f : FieldItem) : Prop where
  key : KeyOk E (typeExpression E n) f
  value : Parses (pAnyOf E (typeExpression E n)) FolAny f.vt f.vv

theorem FieldOk.head {E : PEnv} {n : Nat} {f : FieldItem} (h : FieldOk E n f) : ∃ t ts, f.toks = t :: ts ∧ t.type ≠ tDotdotdot ∧ t.type ≠ 125 :=
  FieldItem.toks_cons h.key

theorem at_struct {E : PEnv} {S : SEnv} {n : Nat} (hn : 1 ≤ n) {items : List FieldItem} (h : ∀ f ∈ items, FieldOk E n f)
    (hs : ∀ f ∈ items, ∃ t ts, f.kt = t :: ts ∧ Start t.type) {additional : Bool} {t : Ty}
    (hm : makeStruct (items.map entryOf) additional = .ok t) :
    AtTe E (n + 1) (chTok 123 :: (joinToks (chTok 44) (items.map (·.toks) ++ if additional then [[Piece.tok S .dots3]] else []) ++ [chTok 125]))
      (.ty t) := by
  refine ⟨brace_head (E := E) ?_, ?_⟩
  · intro x hx
    cases items with
    | nil =>
      cases additional
      · simp [joinToks] at hx
      · simp only [List.map_nil, List.nil_append, if_true, joinToks, List.head?_cons, Option.some.injEq] at hx
        subst hx; exact ⟨show tDotdotdot ≠ 58 by decide, show tDotdotdot ≠ 63 by decide⟩
    | cons y ys =>
      obtain ⟨a, as, ha, hs⟩ := hs y List.mem_cons_self
      obtain ⟨r, hr⟩ := joinToks_head (chTok 44) y.toks (ys.map (·.toks) ++ if additional then [[Piece.tok S .dots3]] else []) a _
        (show y.toks = a :: _ by unfold FieldItem.toks; rw [ha]; rfl)
      rw [List.map_cons, List.cons_append, hr] at hx
      simp only [List.head?_cons, Option.some.injEq] at hx
      subst hx
      exact ⟨(headStart hs).1, (headStart hs).2.1⟩
  · intro rest hr
    have e : joinToks (chTok 44) (items.map (·.toks) ++ if additional then [[Piece.tok S .dots3]] else []) ++ [chTok 125] ++ rest =
        joinToks (chTok 44) (items.map (·.toks) ++ if additional then [[Piece.tok S .dots3]] else []) ++ chTok 125 :: rest := by simp
    rw [List.cons_append, peekTok_cons, List.tail_cons, e, te_list]
    unfold pList
    have hi : ∀ x ∈ items, KeyOk E (typeExpression E n) x ∧ Parses (pAnyOf E (typeExpression E n)) FolAny x.vt x.vv :=
      fun x hx => ⟨(h x hx).key, (h x hx).value⟩
    cases additional
    · simp only [Bool.false_eq_true, if_false, List.append_nil]
      by_cases hne : items = []
      · subst hne
        simp only [List.map_nil, joinToks, List.nil_append]
        simp only [List.map_nil] at hm
        have : ∀ k, listLoop E (typeExpression E n) 125 (k + 1) false (if True then 1 else 0) [] (chTok 125 :: rest) =
          .ok ((false, 1, []), rest) := fun k => rfl
        rw [this]
        simp only [ne_eq, not_true_eq_false, if_false, show ¬ ((1 : Nat) = 0) from by decide, hm]
        rfl
      · rw [listLoop_fields (hte_str hn) rest items hne hi _ _ _ ?_ (by decide)]
        · dsimp only
          rw [if_pos (by simpa using hne), if_pos rfl, List.nil_append, hm]
          rfl
        · have := joinToks_length (chTok 44) (items.map (·.toks))
          simp only [List.length_map, List.length_append, List.length_cons] at this ⊢
          omega
    · simp only [if_true]
      have := listLoop_additional (hte_str hn (E := E)) (Piece.tok S .dots3) rfl rest items hi
        ((joinToks (chTok 44) (items.map (·.toks) ++ [[Piece.tok S .dots3]]) ++ chTok 125 :: rest).length + 1) 1 [] (by
          have := joinToks_length (chTok 44) (items.map (·.toks) ++ [[Piece.tok S .dots3]])
          simp only [List.length_map, List.length_append, List.length_cons, List.length_nil] at this ⊢
          omega) (by decide)
      rw [this]
      dsimp only
      by_cases hne : items = []
      · subst hne
        simp only [List.map_nil] at hm
        simp only [List.map_nil, List.append_nil, ne_eq, not_true_eq_false, if_false, if_true, show ¬ ((1 : Nat) = 0) from by decide, hm]
        rfl
      · rw [if_pos (by simpa using hne), if_neg hne, if_pos rfl, List.nil_append, hm]
        rfl

/-! ## Words with arguments -/

theorem sizedStringType_ok {min max : Int} (h : SizesOk min max) (h' : ¬ (min = 0 ∧ max = maxInt)) :
    Types.sizedStringType min max = .sizedStr min max := by
  obtain ⟨h1, h2, h3⟩ := h
  unfold Types.sizedStringType
  simp only [show ¬ (min < 0) from by omega, show ¬ (max < min) from by omega, if_false, h']

theorem at_sizedStr {E : PEnv} {S : SEnv} {n : Nat} (hn : 1 ≤ n) {min max : Int} (h : SizesOk min max) (h' : ¬ (min = 0 ∧ max = maxInt)) :
    AtTe E (n + 1) (⟨wString, tIdentifier⟩ :: chTok 91 :: (toks S (sizeBoundaries min max) ++ [chTok 93])) (.ty (.sizedStr min max)) := by
  refine ⟨⟨_, _, rfl, by simp [Start], show tIdentifier ≠ 33 by decide, show tIdentifier ≠ 126 by decide, ?_⟩, ?_⟩
  · intro x hx
    simp only [List.head?_cons, Option.some.injEq] at hx
    subst hx; decide
  · intro rest hr
    simp only [List.cons_append, peekTok_cons, List.tail_cons, List.append_assoc, List.nil_append]
    rw [te_word (by rw [peekTok_cons]; decide)]
    have e : ∀ te r, pIdentifier E te ⟨wString, tIdentifier⟩ r = pString E te r := fun _ _ => rfl
    rw [e]
    unfold pString
    rw [peekTok_cons, if_pos (show (chTok 91).type = 91 from rfl), List.tail_cons, pParams_sizes hn h]
    have hz := sizedStringType_ok h h'
    obtain ⟨h1, h2, h3⟩ := h
    dsimp only
    have e1 := toInt_size (v := min) h1 (by omega)
    have e2 := toInt_size (v := max) (by omega) h3
    by_cases hm : max = maxInt
    · rw [if_neg (by simp [hm])]
      rw [hm] at hz
      simp only [stringType, e1, hz, hm, orPanic]
      rfl
    · rw [if_pos hm]
      simp only [stringType, e1, e2, hz, orPanic]
      rfl

theorem clampSizes_ok {min max : Int} (h : SizesOk min max) : Types.clampSizes min max = (min, max) := by
  obtain ⟨h1, h2, h3⟩ := h
  unfold Types.clampSizes
  simp only [show ¬ (min < 0) from by omega, show ¬ (max < 0) from by omega, if_false, show ¬ (max < min) from by omega]

/-- The tokens of sizes in brackets -/
def bracketSizes (S : SEnv) (min max : Int) : List Token :=
  if min = 0 ∧ max = maxInt then [] else toks S (sizeBoundaries min max)

theorem sizes_start (S : SEnv) (min max : Int) : ∃ t ts, toks S (sizeBoundaries min max) = t :: ts ∧ t.type = tInteger := by
  exact ⟨_, _, rfl, rfl⟩

theorem at_array {E : PEnv} {S : SEnv} {n : Nat} (hn : 1 ≤ n) {ts : List Token} {v : PV} (h : AtTe E n ts v) {min max : Int}
    (hs : SizesOk min max) {t : Ty} (ht : Types.newArrayType O v.asType min max = some t) :
    AtTe E (n + 1) (chTok 91 :: (bracketSizes S min max ++ [chTok 93] ++ ts)) (.ty t) := by
  refine ⟨⟨_, _, rfl, by simp [Start, chTok], show 91 ≠ 33 by decide, show 91 ≠ 126 by decide, ?_⟩, ?_⟩
  · intro x hx
    unfold bracketSizes at hx
    split at hx
    · simp only [List.nil_append, List.cons_append, List.head?_cons, Option.some.injEq] at hx
      subst hx; decide
    · obtain ⟨a, as, ha, hta⟩ := sizes_start S min max
      rw [ha] at hx
      simp only [List.cons_append, List.head?_cons, Option.some.injEq] at hx
      subst hx; rw [hta]; decide
  · intro rest hr
    have e : bracketSizes S min max ++ [chTok 93] ++ ts ++ rest = bracketSizes S min max ++ chTok 93 :: (ts ++ rest) := by simp
    rw [List.cons_append, peekTok_cons, List.tail_cons, e]
    have e2 : ∀ r, typeExpression E (n + 1) (chTok 91) r = pArray E (typeExpression E n) r := fun r => rfl
    rw [e2]
    unfold pArray bracketSizes
    have h1 := h.parses rest hr
    by_cases hu : min = 0 ∧ max = maxInt
    · rw [if_pos hu]
      have : pParams E (typeExpression E n) ([] ++ chTok 93 :: (ts ++ rest)) = .ok ([], ts ++ rest) := rfl
      rw [this]
      dsimp only
      rw [h1]
      dsimp only
      rw [hu.1, hu.2] at ht
      rw [arrayType, ht]
      rfl
    · rw [if_neg hu, pParams_sizes hn hs]
      dsimp only
      rw [h1]
      dsimp only
      obtain ⟨s1, s2, s3⟩ := hs
      have e1 := toInt_size (v := min) s1 (by omega)
      have e2 := toInt_size (v := max) (by omega) s3
      by_cases hm : max = maxInt
      · rw [if_neg (by simp [hm])]
        rw [hm] at ht
        simp only [arrayType, e1, ht]
        rfl
      · rw [if_pos hm]
        simp only [arrayType, e1, e2, ht]
        rfl

theorem at_map {E : PEnv} {S : SEnv} {n : Nat} (hn : 1 ≤ n) {ks vs : List Token} {k v : PV} (hk : AtAny E n ks k) (hv : AtTe E n vs v)
    {min max : Int} (hs : SizesOk min max) :
    AtTe E (n + 1) (⟨wMap, tIdentifier⟩ :: chTok 91 ::
      (ks ++ (if min = 0 ∧ max = maxInt then [] else chTok 44 :: toks S (sizeBoundaries min max)) ++ [chTok 93] ++ vs))
      (.ty (Types.newMapType O k.asType v.asType min max)) := by
  refine ⟨⟨_, _, rfl, by simp [Start], show tIdentifier ≠ 33 by decide, show tIdentifier ≠ 126 by decide, ?_⟩, ?_⟩
  · intro x hx
    simp only [List.head?_cons, Option.some.injEq] at hx
    subst hx; decide
  · intro rest hr
    rw [List.cons_append, peekTok_cons, List.tail_cons, te_word (by rw [List.cons_append, peekTok_cons]; decide)]
    have e : ∀ te r, pIdentifier E te ⟨wMap, tIdentifier⟩ r = pMap E te r := fun _ _ => rfl
    rw [e, List.cons_append]
    unfold pMap
    rw [peekTok_cons, if_neg (by decide), List.tail_cons]
    dsimp only
    have hv1 := hv.parses rest hr
    by_cases hu : min = 0 ∧ max = maxInt
    · have h1 := hk.parses (chTok 93 :: (vs ++ rest)) folAny_close.2.1
      rw [if_pos hu]
      have e1 : ks ++ [] ++ [chTok 93] ++ vs ++ rest = ks ++ chTok 93 :: (vs ++ rest) := by simp
      rw [e1, h1]
      dsimp only
      rw [peekTok_cons, if_neg (by decide), if_neg (by decide), List.tail_cons]
      dsimp only
      rw [hv1]
      dsimp only
      rw [hu.1, hu.2]
      rfl
    · have h1 := hk.parses (chTok 44 :: (toks S (sizeBoundaries min max) ++ chTok 93 :: (vs ++ rest))) folAny_close.2.2.2.1
      rw [if_neg hu]
      have e1 : ks ++ chTok 44 :: toks S (sizeBoundaries min max) ++ [chTok 93] ++ vs ++ rest =
        ks ++ chTok 44 :: (toks S (sizeBoundaries min max) ++ chTok 93 :: (vs ++ rest)) := by simp
      rw [e1, h1]
      dsimp only
      rw [peekTok_cons, if_pos (by decide), List.tail_cons, pParams_sizes hn hs]
      dsimp only
      rw [hv1]
      dsimp only
      obtain ⟨s1, s2, s3⟩ := hs
      have e1 := toInt_size (v := min) s1 (by omega)
      have e2 := toInt_size (v := max) (by omega) s3
      by_cases hm : max = maxInt
      · rw [if_neg (by simp [hm])]
        simp only [mapType, e1, hm]
        rfl
      · rw [if_pos hm]
        simp only [mapType, e1, e2]
        rfl

theorem at_sens {E : PEnv} {n : Nat} {ts : List Token} {t : Ty} (h : AtAny E n ts (.ty t)) :
    AtTe E (n + 1) (⟨wSensitive, tIdentifier⟩ :: chTok 91 :: (ts ++ [chTok 93])) (.ty (.sens O t)) := by
  refine ⟨⟨_, _, rfl, by simp [Start], show tIdentifier ≠ 33 by decide, show tIdentifier ≠ 126 by decide, ?_⟩, ?_⟩
  · intro x hx
    simp only [List.head?_cons, Option.some.injEq] at hx
    subst hx; decide
  · intro rest hr
    simp only [List.cons_append, peekTok_cons, List.tail_cons, List.append_assoc, List.nil_append]
    rw [te_word (by rw [peekTok_cons]; decide)]
    have e : ∀ te r, pIdentifier E te ⟨wSensitive, tIdentifier⟩ r = pSensitive E te r := fun _ _ => rfl
    rw [e]
    unfold pSensitive
    rw [peekTok_cons, if_pos (show (chTok 91).type = 91 from rfl), List.tail_cons]
    obtain ⟨a, as, ha, hs, hh⟩ := h.head
    have := paramsLoop_items (E := E) (te := typeExpression E n) rest [(ts, .ty t)] (by
      intro x hx
      rw [List.mem_singleton.1 hx]
      exact ⟨h.parses, a, as, ha, (headStart hs).2.2.2.1, hh⟩) ((ts ++ chTok 93 :: rest).length + 1) [] (by simp; omega)
    unfold pParams
    simp only [List.map_cons, List.map_nil, joinToks, List.nil_append] at this
    rw [this]
    rfl

theorem at_meta {E : PEnv} {n : Nat} {ts : List Token} {v : PV} (h : AtAny E n ts v) :
    AtTe E (n + 1) (⟨wType, tIdentifier⟩ :: chTok 91 :: (ts ++ [chTok 93])) (.ty (.metaT v.asType)) := by
  refine ⟨⟨_, _, rfl, by simp [Start], show tIdentifier ≠ 33 by decide, show tIdentifier ≠ 126 by decide, ?_⟩, ?_⟩
  · intro x hx
    simp only [List.head?_cons, Option.some.injEq] at hx
    subst hx; decide
  · intro rest hr
    simp only [List.cons_append, peekTok_cons, List.tail_cons, List.append_assoc, List.nil_append]
    rw [te_word (by rw [peekTok_cons]; decide)]
    have e : ∀ te r, pIdentifier E te ⟨wType, tIdentifier⟩ r = pMeta E te r := fun _ _ => rfl
    rw [e]
    unfold pMeta
    rw [peekTok_cons, if_neg (by decide), List.tail_cons]
    dsimp only
    rw [h.parses (chTok 93 :: rest) folAny_close.2.1]
    rfl

end Verif.Text
