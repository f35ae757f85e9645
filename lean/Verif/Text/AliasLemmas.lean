import Verif.Text.AliasSpec
import Verif.Text.Chains
/-!
# Types with names are read back: lemmas

As Text/RereadTy.lean and Text/Chains.lean, for the printer with an alias map.
-/
set_option autoImplicit false
set_option linter.unusedVariables false
set_option linter.unusedSimpArgs false
namespace Verif.Text.Nam
open Verif.Text
open Verif.Value (Str Val F64)
open Verif.Types (Ty Oid maxInt)

theorem named_none {N : Names} {t : Ty} {ps : List Piece} (h : N t = none) : named N t ps = ps := by unfold named; rw [h]

mutual
/-- `namPieces` without the names of types of values -/
def auxPieces (N : Names) (S : SEnv) (st : Val → List Piece) (prio : Nat) : Ty → List Piece
  | .any => named N .any [.word wAny]
  | .nilT => named N .nilT [.word wNil]
  | .boolT => named N .boolT [.word wBool]
  | .intT => named N .intT [.word wInt]
  | .floatT => named N .floatT [.word wFloat]
  | .strT => named N .strT [.word wString]
  | .regexpT => named N .regexpT [.word wRegexp]
  | .timeT => named N .timeT [.word wTime]
  | .arrT => named N .arrT ([.ch 91, .ch 93] ++ named N .any [.word wAny])
  | .mapT => named N .mapT ([.word wMap, .ch 91] ++ named N .any [.word wAny] ++ [.ch 93] ++ named N .any [.word wAny])
  | .exact v => named N (.exact v) (valPieces S st v)
  | .intRange min max inclusive => named N (.intRange min max inclusive) (intRangePieces min max inclusive)
  | .floatRange min max inclusive => named N (.floatRange min max inclusive) (floatRangePieces min max inclusive)
  | .sizedStr min max => named N (.sizedStr min max) (
    [.word wString] ++ if min = 0 ∧ max = maxInt then [] else [.ch 91] ++ sizeBoundaries min max ++ [.ch 93])
  | .ciStr s => named N (.ciStr s) ([.ch 126, .str s])
  | .pattern rx => named N (.pattern rx) ([.rx rx])
  | .bin min max => named N (.bin min max) ([.word wBinary] ++ if min = 0 ∧ max = maxInt then [] else [.ch 91] ++ sizeBoundaries min max ++ [.ch 93])
  | .exactD o v => named N (.exactD o v) (valPieces S st v)
  | .sizedArr o e min max => named N (.sizedArr o e min max) (
    (if min = 0 ∧ max = maxInt then [.ch 91, .ch 93] else [.ch 91] ++ sizeBoundaries min max ++ [.ch 93]) ++ auxPieces N S st typePrio e)
  | .tuple o ts variadic => named N (.tuple o ts variadic) ([.ch 123] ++ auxTuple N S st variadic ts ++ [.ch 125])
  | .sizedMap o k v min max => named N (.sizedMap o k v min max) (
    [.word wMap, .ch 91] ++ auxPieces N S st commaPrio k ++
      (if min = 0 ∧ max = maxInt then [] else [.ch 44] ++ sizeBoundaries min max) ++ [.ch 93] ++ auxPieces N S st typePrio v)
  | .struct o additional fs => named N (.struct o additional fs) (
    [.ch 123] ++ auxFields N S st fs ++ (if additional then (if fs.isEmpty then [] else [.ch 44]) ++ [.dots3] else []) ++ [.ch 125])
  | .allOf o ts => named N (.allOf o ts) (ternary prio (auxJoin N S st (.ch 38) andPrio ts))
  | .allOfVal o vs => named N (.allOfVal o vs) (ternary prio (valsPieces S st (.ch 38) vs))
  | .anyOf o ts => named N (.anyOf o ts) (ternary prio (auxJoin N S st (.ch 124) orPrio ts))
  | .oneOf o ts => named N (.oneOf o ts) (ternary prio (auxJoin N S st (.ch 94) xorPrio ts))
  | .not t => named N (.not t) ([.ch 33] ++ auxPieces N S st typePrio t)
  | .sens o t => named N (.sens o t) ([.word wSensitive] ++ if t.isAny then [] else [.ch 91] ++ auxPieces N S st prio t ++ [.ch 93])
  | .metaT t => named N (.metaT t) ([.word wType] ++ if t.isAny then [] else [.ch 91] ++ auxPieces N S st prio t ++ [.ch 93])
  | .metaMeta => named N .metaMeta ([.word wType, .ch 91, .word wType, .ch 93])

def auxJoin (N : Names) (S : SEnv) (st : Val → List Piece) (sep : Piece) (prio : Nat) : List Ty → List Piece
  | [] => []
  | [t] => auxPieces N S st prio t
  | t :: ts => auxPieces N S st prio t ++ [sep] ++ auxJoin N S st sep prio ts

def auxTuple (N : Names) (S : SEnv) (st : Val → List Piece) (variadic : Bool) : List Ty → List Piece
  | [] => []
  | [t] => (if variadic then [.dots3] else []) ++ auxPieces N S st commaPrio t
  | t :: ts => auxPieces N S st commaPrio t ++ [.ch 44] ++ auxTuple N S st variadic ts

def auxFields (N : Names) (S : SEnv) (st : Val → List Piece) : List (Val × Bool × Ty) → List Piece
  | [] => []
  | [(k, rq, t)] => valPieces S st k ++ (if rq then [] else [.ch 63]) ++ [.ch 58] ++ auxPieces N S st commaPrio t
  | (k, rq, t) :: fs =>
    valPieces S st k ++ (if rq then [] else [.ch 63]) ++ [.ch 58] ++ auxPieces N S st commaPrio t ++ [.ch 44] ++ auxFields N S st fs
end

/-- No type of a value has a name -/
def NoVals (N : Names) : Prop := ∀ t, t.isExact = true → N t = none

theorem no_vals {N : Names} {E : PEnv} (h : NamesOk N E) : NoVals N := by
  intro t ht
  cases h0 : N t with
  | none => rfl
  | some n => rw [(h t n h0).2.2.2] at ht; cases ht

mutual
theorem val_eq {N : Names} (h : NoVals N) (S : SEnv) (st : Val → List Piece) : (v : Val) → namVal N S st v = valPieces S st v
  | .nil => by rw [namVal, valPieces, named_none (h _ rfl)]
  | .bool _ => by rw [namVal, valPieces, named_none (h _ rfl)]
  | .int _ => by rw [namVal, valPieces, named_none (h _ rfl)]
  | .float _ => by rw [namVal, valPieces, named_none (h _ rfl)]
  | .str _ => by rw [namVal, valPieces, named_none (h _ rfl)]
  | .bin _ => by rw [namVal, valPieces, named_none (h _ rfl)]
  | .time _ => by rw [namVal, valPieces, named_none (h _ rfl)]
  | .regexp _ => by rw [namVal, valPieces, named_none (h _ rfl)]
  | .sens _ => by rw [namVal, valPieces]
  | .arr vs => by rw [namVal, valPieces, named_none (h _ rfl), vals_eq h S st _ vs]
  | .map es => by rw [namVal, valPieces, named_none (h _ rfl), entries_eq h S st es]
  | .entry k v => by rw [namVal, valPieces, named_none (h _ rfl), val_eq h S st k, val_eq h S st v]
theorem vals_eq {N : Names} (h : NoVals N) (S : SEnv) (st : Val → List Piece) (sep : Piece) : (vs : List Val) →
    namVals N S st sep vs = valsPieces S st sep vs
  | [] => rfl
  | [v] => by rw [namVals, valsPieces, val_eq h S st v]
  | v :: w :: vs => by
    rw [namVals, valsPieces, val_eq h S st v, vals_eq h S st sep (w :: vs)]
    all_goals simp
theorem entries_eq {N : Names} (h : NoVals N) (S : SEnv) (st : Val → List Piece) : (es : List (Val × Val)) →
    namEntries N S st es = entriesPieces S st es
  | [] => rfl
  | [(k, v)] => by rw [namEntries, entriesPieces, named_none (h _ rfl), val_eq h S st k, val_eq h S st v]
  | (k, v) :: e :: es => by
    rw [namEntries, entriesPieces, named_none (h _ rfl), val_eq h S st k, val_eq h S st v, entries_eq h S st (e :: es)]
    all_goals simp
end

mutual
theorem aux_eq {N : Names} (h : NoVals N) (S : SEnv) (st : Val → List Piece) (prio : Nat) : (t : Ty) → namPieces N S st prio t = auxPieces N S st prio t
  | .exact v => by rw [namPieces, auxPieces, val_eq h]
  | .exactD _ v => by rw [namPieces, auxPieces, val_eq h]
  | .allOfVal _ vs => by rw [namPieces, auxPieces, vals_eq h]
  | .sizedArr _ e _ _ => by rw [namPieces, auxPieces, aux_eq h S st _ e]
  | .tuple _ ts _ => by rw [namPieces, auxPieces, tuple_eq h S st _ ts]
  | .sizedMap _ k v _ _ => by rw [namPieces, auxPieces, aux_eq h S st _ k, aux_eq h S st _ v]
  | .struct _ _ fs => by rw [namPieces, auxPieces, fields_eq h S st fs]
  | .allOf _ ts => by rw [namPieces, auxPieces, join_eq h S st _ _ ts]
  | .anyOf _ ts => by rw [namPieces, auxPieces, join_eq h S st _ _ ts]
  | .oneOf _ ts => by rw [namPieces, auxPieces, join_eq h S st _ _ ts]
  | .not t => by rw [namPieces, auxPieces, aux_eq h S st _ t]
  | .sens _ t => by rw [namPieces, auxPieces, aux_eq h S st _ t]
  | .metaT t => by rw [namPieces, auxPieces, aux_eq h S st _ t]
  | .any => rfl | .nilT => rfl | .boolT => rfl | .intT => rfl | .floatT => rfl | .strT => rfl | .regexpT => rfl | .timeT => rfl
  | .arrT => rfl | .mapT => rfl | .intRange .. => rfl | .floatRange .. => rfl | .sizedStr .. => rfl | .ciStr .. => rfl
  | .pattern .. => rfl | .bin .. => rfl | .metaMeta => rfl
theorem join_eq {N : Names} (h : NoVals N) (S : SEnv) (st : Val → List Piece) (sep : Piece) (prio : Nat) : (ts : List Ty) →
    namJoin N S st sep prio ts = auxJoin N S st sep prio ts
  | [] => rfl
  | [t] => by rw [namJoin, auxJoin, aux_eq h S st _ t]
  | t :: u :: ts => by
    rw [namJoin, auxJoin, aux_eq h S st _ t, join_eq h S st sep prio (u :: ts)]
    all_goals simp
theorem tuple_eq {N : Names} (h : NoVals N) (S : SEnv) (st : Val → List Piece) (b : Bool) : (ts : List Ty) →
    namTuple N S st b ts = auxTuple N S st b ts
  | [] => rfl
  | [t] => by rw [namTuple, auxTuple, aux_eq h S st _ t]
  | t :: u :: ts => by
    rw [namTuple, auxTuple, aux_eq h S st _ t, tuple_eq h S st b (u :: ts)]
    all_goals simp
theorem fields_eq {N : Names} (h : NoVals N) (S : SEnv) (st : Val → List Piece) : (fs : List (Val × Bool × Ty)) →
    namFields N S st fs = auxFields N S st fs
  | [] => rfl
  | [(k, rq, t)] => by rw [namFields, auxFields, aux_eq h S st _ t, val_eq h]
  | (k, rq, t) :: f :: fs => by
    rw [namFields, auxFields, aux_eq h S st _ t, val_eq h, fields_eq h S st (f :: fs)]
    all_goals simp
end

theorem nam_some {N : Names} {S : SEnv} {st : Val → List Piece} {prio : Nat} {t : Ty} {n : Str} (h : N t = some n) :
    auxPieces N S st prio t = [.word n] := by
  cases t <;> (rw [auxPieces]; unfold named; rw [h])

theorem name_pv {t : Ty} (h : t.isExact = false) : pvOf t = .ty (strip t) := by
  cases t <;> first | rfl | cases h

theorem at_name {N : Names} {E : PEnv} (hN : NamesOk N E) {t : Ty} {s : Str} (h : N t = some s) {n : Nat} (hn : 1 ≤ n) :
    AtTe E n [⟨s, tIdentifier⟩] (pvOf t) := by
  obtain ⟨h1, h2, h3, h4⟩ := hN t s h
  rw [name_pv h4]
  refine at_word hn fun rest te _ => ?_
  simp only [wordsOfTypes, wAny, wBool, wInt, wFloat, wBinary, wTrue, wFalse, wNil, wMap, wType, wString, wSensitive, List.mem_cons, List.not_mem_nil, or_false, not_or] at h2
  unfold pIdentifier
  simp [h2, h3]

theorem two_le' {ts : List Ty} (hl : 2 ≤ ts.length) (f : Ty → List Token) : 2 ≤ (ts.map fun t => (f t, pvOf t)).length := by simpa using hl

theorem toks_join (N : Names) (S : SEnv) (st : Val → List Piece) (c : UInt8) (prio : Nat) : ∀ ts : List Ty,
    toks S (auxJoin N S st (.ch c) prio ts) = joinToks (chTok c.toNat) (ts.map fun t => toks S (auxPieces N S st prio t))
  | [] => by rw [auxJoin]; rfl
  | [t] => by rw [auxJoin]; rfl
  | t :: u :: ts => by
    rw [auxJoin, toks_append, toks_append, toks_join N S st c prio (u :: ts)]
    · rfl
    · simp

theorem toks_tuple (N : Names) (S : SEnv) (st : Val → List Piece) : ∀ ts : List Ty,
    toks S (auxTuple N S st false ts) = joinToks (chTok 44) (ts.map fun t => toks S (auxPieces N S st commaPrio t))
  | [] => by rw [auxTuple]; rfl
  | [t] => by rw [auxTuple]; rfl
  | t :: u :: ts => by
    rw [auxTuple, toks_append, toks_append, toks_tuple N S st (u :: ts)]
    · rfl
    · simp

theorem toks_variadic (N : Names) (S : SEnv) (st : Val → List Piece) (l : Ty) : ∀ ts : List Ty,
    toks S (auxTuple N S st true (ts ++ [l])) =
      joinToks (chTok 44) ((ts.map fun t => toks S (auxPieces N S st commaPrio t)) ++ [Piece.tok S .dots3 :: toks S (auxPieces N S st commaPrio l)])
  | [] => by rw [List.nil_append, auxTuple]; rfl
  | [t] => by
    rw [List.cons_append, List.nil_append, auxTuple, auxTuple, toks_append, toks_append]
    · rfl
    · simp
  | t :: u :: ts => by
    rw [List.cons_append, List.cons_append, auxTuple, toks_append, toks_append, ← List.cons_append, toks_variadic N S st l (u :: ts)]
    · rfl
    · simp

theorem toks_fields (N : Names) (S : SEnv) (st : Val → List Piece) : ∀ fs : List (Val × Bool × Ty),
    toks S (auxFields N S st fs) = joinToks (chTok 44) (fs.map fun f => toks S (valPieces S st f.1) ++ ((if f.2.1 then [] else [chTok 63]) ++
      chTok 58 :: toks S (auxPieces N S st commaPrio f.2.2)))
  | [] => by rw [auxFields]; rfl
  | [(k, rq, t)] => by
    rw [auxFields]
    cases rq <;> simp [toks_append, toks_cons, toks_nil, joinToks, Piece.tok, chTok]
  | (k, rq, t) :: f :: fs => by
    rw [auxFields]
    · simp only [toks_append, toks_fields N S st (f :: fs), List.map_cons, joinToks_cons]
      cases rq <;> simp [toks_append, toks_cons, toks_nil, joinToks, Piece.tok, chTok]
    · simp


/-- What is known of a printed type -/
def TyOk (N : Names) (S : SEnv) (E : PEnv) (st : Val → List Piece) (t : Ty) : Prop :=
  ∀ prio n, (toks S (auxPieces N S st prio t)).length ≤ n →
    AtAny E n (toks S (auxPieces N S st prio t)) (pvOf t) ∧
    ((ternaryTy t = false ∨ 1 ≤ prio) → AtUn E n (toks S (auxPieces N S st prio t)) (pvOf t)) ∧
    ((ternaryTy t = false ∨ 1 ≤ prio) → (plain t = true ∨ ∃ s, N t = some s) → AtTe E n (toks S (auxPieces N S st prio t)) (pvOf t))

theorem TyOk.of_te {N : Names} {S : SEnv} {E : PEnv} {st : Val → List Piece} {t : Ty}
    (h : ∀ prio n, (toks S (auxPieces N S st prio t)).length ≤ n → AtTe E n (toks S (auxPieces N S st prio t)) (pvOf t)) : TyOk N S E st t :=
  fun prio n hn => ⟨(h prio n hn).un.any, fun _ => (h prio n hn).un, fun _ _ => h prio n hn⟩

theorem TyOk.of_un {N : Names} {S : SEnv} {E : PEnv} {st : Val → List Piece} {t : Ty} (h0 : N t = none) (hp : plain t = false)
    (h : ∀ prio n, (toks S (auxPieces N S st prio t)).length ≤ n → AtUn E n (toks S (auxPieces N S st prio t)) (pvOf t)) : TyOk N S E st t :=
  fun prio n hn => ⟨(h prio n hn).any, fun _ => h prio n hn, fun _ h' => by rw [hp, h0] at h'; rcases h' with h' | ⟨_, h'⟩ <;> cases h'⟩

/-- Operands, in parentheses if need be -/
theorem TyOk.of_ops {N : Names} {S : SEnv} {E : PEnv} {st : Val → List Piece} {t : Ty} {ops : List Piece} (ht : ternaryTy t = true)
    (hp : ∀ prio, auxPieces N S st prio t = ternary prio ops)
    (h : ∀ n, (toks S ops).length ≤ n → AtAny E n (toks S ops) (pvOf t)) : TyOk N S E st t := by
  intro prio n hn
  rw [hp] at hn ⊢
  by_cases h1 : 1 ≤ prio
  · have e : toks S (ternary prio ops) = chTok 40 :: (toks S ops ++ [chTok 41]) := by
      unfold ternary orPrio
      simp [h1, toks_append, toks_cons, toks_nil, Piece.tok, chTok]
    rw [e] at hn ⊢
    obtain ⟨m, rfl⟩ : ∃ m, n = m + 1 := ⟨n - 1, by simp at hn; omega⟩
    have := at_paren (h m (by simp at hn; omega))
    exact ⟨this.un.any, fun _ => this.un, fun _ _ => this⟩
  · have e : ternary prio ops = ops := by
      unfold ternary orPrio
      simp [h1]
    rw [e] at hn ⊢
    refine ⟨h n hn, ?_, ?_⟩
    · intro h; rw [ht] at h; simp at h; omega
    · intro h; rw [ht] at h; simp at h; omega


/-! ### The types that are read back -/

/-- The types without parts -/
def leaf : Ty → Bool
  | .sizedArr .. | .tuple .. | .sizedMap .. | .struct .. | .allOf .. | .anyOf .. | .oneOf .. | .not .. | .sens .. | .metaT .. => false
  | _ => true

theorem out {N : Names} {t : Ty} {P : Prop} (h0 : N t = none) (h : N t ≠ none ∨ P) : P := h.resolve_left fun h => h h0

theorem rtn_leaf {N : Names} {S : SEnv} {E : PEnv} {t : Ty} (hl : leaf t = true) (h : RtN N S E t) : N t ≠ none ∨ RtTy S E t := by
  cases t <;> first | (cases hl; done) | exact h

theorem rtn {N : Names} {S : SEnv} {E : PEnv} {t : Ty} (h0 : N t = none) (hl : leaf t = true) (h : RtN N S E t) : RtTy S E t := out h0 (rtn_leaf hl h)

theorem pvOf_asTypeN {N : Names} {S : SEnv} {E : PEnv} {t : Ty} (hN : NamesOk N E) (h : RtN N S E t) : (pvOf t).asType = strip t := by
  cases t with
  | exact v =>
    have h0 : N (.exact v) = none := by
      cases h1 : N (.exact v) with
      | none => rfl
      | some n => exact absurd (hN _ _ h1).2.2.2 (by simp [Ty.isExact])
    exact pvOf_asType (rtn h0 rfl h)
  | _ => rfl

theorem rtNs_mem {N : Names} {S : SEnv} {E : PEnv} : ∀ {ts : List Ty}, RtNs N S E ts → ∀ t ∈ ts, RtN N S E t
  | [], _, v, hv => by cases hv
  | w :: vs, h, v, hv => by
    rw [RtNs] at h
    rcases List.mem_cons.1 hv with rfl | hv
    · exact h.1
    · exact rtNs_mem h.2 v hv

theorem rtNF_mem {N : Names} {S : SEnv} {E : PEnv} : ∀ {fs : List (Val × Bool × Ty)}, RtNF N S E fs → ∀ f ∈ fs,
    RtVal S E f.1 ∧ keyOk f.2.1 f.1 = true ∧ RtN N S E f.2.2
  | [], _, v, hv => by cases hv
  | (k, rq, t) :: fs, h, v, hv => by
    rw [RtNF] at h
    rcases List.mem_cons.1 hv with rfl | hv
    · exact h.1
    · exact rtNF_mem h.2 v hv

theorem map_asTypeN {N : Names} {S : SEnv} {E : PEnv} {ts : List Ty} (hN : NamesOk N E) (h : RtNs N S E ts) (f : Ty → List Token) :
    ((ts.map fun t => (f t, pvOf t)).map fun x => x.2.asType) = strips ts := by
  rw [strips_map, List.map_map]
  exact List.map_congr_left fun t ht => pvOf_asTypeN hN (rtNs_mem h t ht)

theorem makeStruct_fieldsN {N : Names} {S : SEnv} {E : PEnv} {fs : List (Val × Bool × Ty)} {additional : Bool} (hN : NamesOk N E) (h : RtNF N S E fs)
    (ha : additional = false → ¬ fs.all (fun f => f.2.1 && f.2.2.isExact) = true) :
    makeStruct (fs.map fun f => .entry (pvVal f.1) (!f.2.1) (pvOf f.2.2)) additional = .ok (.struct O additional (stripFields fs)) := by
  have h1 := structFields_of (fs.map fun f => (f.1, f.2.1, pvOf f.2.2)) pvVal (by
    intro f hf
    obtain ⟨e, he, rfl⟩ := List.mem_map.1 hf
    exact (val_exact (rtNF_mem h e he).1).2.1)
  rw [List.map_map, List.map_map] at h1
  have e1 : ((fun f : Val × Bool × PV => Elem.entry (pvVal f.1) (!f.2.1) f.2.2) ∘ fun f : Val × Bool × Ty => (f.1, f.2.1, pvOf f.2.2)) =
      fun f => .entry (pvVal f.1) (!f.2.1) (pvOf f.2.2) := rfl
  have e2 : fs.map ((fun f : Val × Bool × PV => (f.1, f.2.1, f.2.2.asType)) ∘ fun f : Val × Bool × Ty => (f.1, f.2.1, pvOf f.2.2)) =
      stripFields fs := by
    rw [stripFields_map]
    refine List.map_congr_left fun f hf => ?_
    show (f.1, f.2.1, (pvOf f.2.2).asType) = _
    rw [pvOf_asTypeN hN (rtNF_mem h f hf).2.2]
  rw [e1, e2] at h1
  unfold makeStruct
  rw [h1]
  dsimp only
  unfold Types.structMapType
  rw [if_neg]
  · rfl
  · intro hc
    rw [Bool.and_eq_true] at hc
    refine ha (by simpa using hc.1) (List.all_eq_true.2 fun f hf => ?_)
    have := List.all_eq_true.1 hc.2 (f.1, f.2.1, strip f.2.2) (by rw [stripFields_map]; exact List.mem_map_of_mem (f := fun f => (f.1, f.2.1, strip f.2.2)) hf)
    simpa [strip_isExact] using this

mutual
theorem RtTy.rtN {N : Names} {S : SEnv} {E : PEnv} : (t : Ty) → RtTy S E t → RtN N S E t
  | .sizedArr _ e _ _, h => by rw [RtTy] at h; rw [RtN]; exact Or.inr ⟨RtTy.rtN e h.1, Or.inl h.2.1, h.2.2⟩
  | .tuple _ ts _, h => by rw [RtTy] at h; rw [RtN]; exact Or.inr ⟨RtTys.rtN ts h.1, h.2⟩
  | .sizedMap _ k v _ _, h => by rw [RtTy] at h; rw [RtN]; exact Or.inr ⟨RtTy.rtN k h.1, RtTy.rtN v h.2.1, Or.inl h.2.2.1, h.2.2.2⟩
  | .struct _ _ fs, h => by rw [RtTy] at h; rw [RtN]; exact Or.inr ⟨RtFields.rtN fs h.1, h.2⟩
  | .allOf _ ts, h => by rw [RtTy] at h; rw [RtN]; exact Or.inr ⟨RtTys.rtN ts h.1, h.2⟩
  | .anyOf _ ts, h => by rw [RtTy] at h; rw [RtN]; exact Or.inr ⟨RtTys.rtN ts h.1, h.2⟩
  | .oneOf _ ts, h => by rw [RtTy] at h; rw [RtN]; exact Or.inr ⟨RtTys.rtN ts h.1, h.2⟩
  | .not t, h => by rw [RtTy] at h; rw [RtN]; exact Or.inr ⟨RtTy.rtN t h.1, h.2⟩
  | .sens _ t, h => by rw [RtTy] at h; rw [RtN]; exact Or.inr ⟨RtTy.rtN t h.1, h.2⟩
  | .metaT t, h => by rw [RtTy] at h; rw [RtN]; exact Or.inr (RtTy.rtN t h)
  | .any, h | .nilT, h | .boolT, h | .intT, h | .floatT, h | .strT, h | .arrT, h | .mapT, h | .exact _, h | .intRange _ _ _, h | .floatRange _ _ _, h
  | .sizedStr _ _, h | .ciStr _, h | .pattern _, h | .bin _ _, h | .exactD _ _, h | .allOfVal _ _, h | .regexpT, h | .timeT, h | .metaMeta, h => Or.inr h
theorem RtTys.rtN {N : Names} {S : SEnv} {E : PEnv} : (ts : List Ty) → RtTys S E ts → RtNs N S E ts
  | [], _ => by rw [RtNs]; trivial
  | t :: ts, h => by rw [RtTys] at h; rw [RtNs]; exact ⟨RtTy.rtN t h.1, RtTys.rtN ts h.2⟩
theorem RtFields.rtN {N : Names} {S : SEnv} {E : PEnv} : (fs : List (Val × Bool × Ty)) → RtFields S E fs → RtNF N S E fs
  | [], _ => by rw [RtNF]; trivial
  | (k, rq, t) :: fs, h => by rw [RtFields] at h; rw [RtNF]; exact ⟨⟨h.1.1, h.1.2.1, RtTy.rtN t h.1.2.2⟩, RtFields.rtN fs h.2⟩
end

theorem by_name {N : Names} {S : SEnv} {E : PEnv} {st : Val → List Piece} {t : Ty} (hN : NamesOk N E) (h : N t = none → TyOk N S E st t) :
    TyOk N S E st t := by
  cases h0 : N t with
  | none => exact h h0
  | some s =>
    refine TyOk.of_te fun prio n hn => ?_
    rw [nam_some h0] at hn ⊢
    exact at_name hN h0 (by simpa [toks_cons, toks_nil] using hn)

theorem at_any {N : Names} {S : SEnv} {E : PEnv} (hN : NamesOk N E) {n : Nat} (hn : 1 ≤ n) :
    AtTe E n (toks S (named N .any [.word wAny])) (.ty .any) := by
  cases h0 : N .any with
  | none => rw [named_none h0]; exact at_word hn fun _ _ _ => rfl
  | some s =>
    have := at_name hN h0 hn
    unfold named; rw [h0]; exact this

section ops
variable {N : Names} {S : SEnv} {E : PEnv} {st : Val → List Piece} {ts : List Ty} {n prio : Nat}

theorem ops_un (hr : ∀ t ∈ ts, TyOk N S E st t) (hp : 1 ≤ prio) {c : Token}
    (hn : (joinToks c (ts.map fun t => toks S (auxPieces N S st prio t))).length ≤ n) :
    ∀ x ∈ ts.map fun t => (toks S (auxPieces N S st prio t), pvOf t), AtUn E n x.1 x.2 := by
  intro x hx
  obtain ⟨t, ht, rfl⟩ := List.mem_map.1 hx
  refine (hr t ht prio n ?_).2.1 (Or.inr hp)
  have := joinToks_le c (List.mem_map_of_mem (f := fun t => toks S (auxPieces N S st prio t)) ht)
  omega

theorem ops_head (hr : ∀ t ∈ ts, TyOk N S E st t) (hp : 1 ≤ prio) {c : Token} (hl : 2 ≤ ts.length) (h1 : c.type ≠ 58) (h2 : c.type ≠ 63)
    (hn : (joinToks c (ts.map fun t => toks S (auxPieces N S st prio t))).length ≤ n) :
    HeadOk (joinToks c (ts.map fun t => toks S (auxPieces N S st prio t))) := by
  match ts, hl with
  | t :: ts, _ =>
    rw [List.map_cons]
    exact join_headOk h1 h2 (ops_un hr hp hn _ (List.mem_map_of_mem List.mem_cons_self)).head _

theorem ok_allOf {o : Oid} (hN : NamesOk N E) (h0 : N (.allOf o ts) = none) (h : RtNs N S E ts) (hl : 2 ≤ ts.length) (hr : ∀ t ∈ ts, TyOk N S E st t) : TyOk N S E st (.allOf o ts) := by
  refine TyOk.of_ops (ops := auxJoin N S st (.ch 38) andPrio ts) rfl (fun prio => by rw [auxPieces, named_none h0]) ?_
  intro n hn
  rw [toks_join] at hn ⊢
  refine ⟨ops_head hr (by decide) hl (by decide) (by decide) hn, ?_⟩
  have := pOp_many (op := 38) (make := Types.allOfType O) (F := Fol) (by simp [Fol]) (two_le' hl fun t => toks S (auxPieces N S st andPrio t))
    (fun x hx => (ops_un hr (by decide) hn x hx).parses) (chTok 38) rfl
  rw [List.map_map, List.map_map] at this
  refine pAnyOf_of (pOneOf_of ?_)
  have e := map_asTypeN hN h fun t => toks S (auxPieces N S st andPrio t)
  rw [List.map_map] at e
  have e2 : Types.allOfType O (strips ts) = strip (.allOf o ts) := by
    rw [strip, strips_map]
    match ts, hl with
    | a :: b :: ts, _ => rfl
  have e3 : (PV.ty (Types.allOfType O (List.map (PV.asType ∘ (fun x : List Token × PV => x.2) ∘ fun t => (toks S (auxPieces N S st andPrio t), pvOf t)) ts))) =
      pvOf (.allOf o ts) := by
    show PV.ty _ = PV.ty _
    rw [← e2, ← e]; rfl
  rw [List.map_map] at this
  rw [← e3]
  exact this

theorem ok_oneOf {o : Oid} (hN : NamesOk N E) (h0 : N (.oneOf o ts) = none) (h : RtNs N S E ts) (hl : 2 ≤ ts.length) (hr : ∀ t ∈ ts, TyOk N S E st t) : TyOk N S E st (.oneOf o ts) := by
  refine TyOk.of_ops (ops := auxJoin N S st (.ch 94) xorPrio ts) rfl (fun prio => by rw [auxPieces, named_none h0]) ?_
  intro n hn
  rw [toks_join] at hn ⊢
  refine ⟨ops_head hr (by decide) hl (by decide) (by decide) hn, ?_⟩
  have := pOp_many (op := 94) (make := Types.oneOfType O) (F := FolAll) (by simp [FolAll, Fol]) (two_le' hl fun t => toks S (auxPieces N S st xorPrio t))
    (fun x hx => pAllOf_of (ops_un hr (by decide) hn x hx).parses) (chTok 94) rfl
  rw [List.map_map, List.map_map] at this
  refine pAnyOf_of ?_
  have e := map_asTypeN hN h fun t => toks S (auxPieces N S st xorPrio t)
  rw [List.map_map] at e
  have e2 : Types.oneOfType O (strips ts) = strip (.oneOf o ts) := by
    rw [strip, strips_map]
    match ts, hl with
    | a :: b :: ts, _ => rfl
  have e3 : (PV.ty (Types.oneOfType O (List.map (PV.asType ∘ (fun x : List Token × PV => x.2) ∘ fun t => (toks S (auxPieces N S st xorPrio t), pvOf t)) ts))) =
      pvOf (.oneOf o ts) := by
    show PV.ty _ = PV.ty _
    rw [← e2, ← e]; rfl
  rw [List.map_map] at this
  rw [← e3]
  exact this

theorem ok_anyOf {o : Oid} (hN : NamesOk N E) (h0 : N (.anyOf o ts) = none) (h : RtNs N S E ts) (hl : 2 ≤ ts.length) (hr : ∀ t ∈ ts, TyOk N S E st t) : TyOk N S E st (.anyOf o ts) := by
  refine TyOk.of_ops (ops := auxJoin N S st (.ch 124) orPrio ts) rfl (fun prio => by rw [auxPieces, named_none h0]) ?_
  intro n hn
  rw [toks_join] at hn ⊢
  refine ⟨ops_head hr (by decide) hl (by decide) (by decide) hn, ?_⟩
  have := pOp_many (op := 124) (make := Types.anyOfType O) (F := FolOne) (by simp [FolOne, FolAll, Fol]) (two_le' hl fun t => toks S (auxPieces N S st orPrio t))
    (fun x hx => pOneOf_of (pAllOf_of (ops_un hr (by decide) hn x hx).parses)) (chTok 124) rfl
  rw [List.map_map, List.map_map] at this
  have e := map_asTypeN hN h fun t => toks S (auxPieces N S st orPrio t)
  rw [List.map_map] at e
  have e2 : Types.anyOfType O (strips ts) = strip (.anyOf o ts) := by
    rw [strip, strips_map]
    match ts, hl with
    | a :: b :: ts, _ => rfl
  have e3 : (PV.ty (Types.anyOfType O (List.map (PV.asType ∘ (fun x : List Token × PV => x.2) ∘ fun t => (toks S (auxPieces N S st orPrio t), pvOf t)) ts))) =
      pvOf (.anyOf o ts) := by
    show PV.ty _ = PV.ty _
    rw [← e2, ← e]; rfl
  rw [List.map_map] at this
  rw [← e3]
  exact this
end ops


theorem ty_first {N : Names} {S : SEnv} {E : PEnv} (st : Val → List Piece) {t : Ty} (h : RtN N S E t) (ho : openRange t = false) {prio : Nat}
    (hp : ternaryTy t = false ∨ 1 ≤ prio) : (peekTok (toks S (auxPieces N S st prio t))).type ≠ tDotdotdot := by
  cases h0 : N t with
  | some n => rw [nam_some h0]; exact (by decide : tIdentifier ≠ tDotdotdot)
  | none =>
  have htern : ∀ ops, 1 ≤ prio → (peekTok (toks S (ternary prio ops))).type ≠ tDotdotdot := by
    intro ops h1
    unfold ternary orPrio
    simp only [h1, if_true]
    exact (by decide : (40 : Nat) ≠ tDotdotdot)
  cases t with
  | exact v => rw [auxPieces, named_none h0]; replace h := rtn h0 rfl h; rw [RtTy] at h; exact val_first st h.2
  | exactD o v => rw [auxPieces, named_none h0]; replace h := rtn h0 rfl h; rw [RtTy] at h; exact val_first st h.2
  | intRange min max inclusive =>
    rw [auxPieces, named_none h0]; unfold intRangePieces
    by_cases hm : min = Types.minI64
    · simp only [openRange, hm, beq_self_eq_true, Bool.true_and] at ho
      subst hm
      simp at ho; subst ho
      simp [toks_append, toks_cons, toks_nil, Piece.tok, peekTok, tDotdotdot, tDotdot]
    · simp [hm, toks_append, toks_cons, toks_nil, Piece.tok, peekTok, tDotdotdot, tInteger]
  | floatRange min max inclusive =>
    rw [auxPieces, named_none h0]; unfold floatRangePieces
    by_cases hm : Value.F64.eq min Types.F64.min = true
    · simp [openRange, hm] at ho
      subst ho
      simp [hm, toks_append, toks_cons, toks_nil, Piece.tok, peekTok, tDotdotdot, tDotdot]
    · simp [hm, toks_append, toks_cons, toks_nil, Piece.tok, peekTok, tDotdotdot, tFloat]
  | allOf o ts => rw [auxPieces, named_none h0]; exact htern _ (by simpa [ternaryTy] using hp)
  | anyOf o ts => rw [auxPieces, named_none h0]; exact htern _ (by simpa [ternaryTy] using hp)
  | oneOf o ts => rw [auxPieces, named_none h0]; exact htern _ (by simpa [ternaryTy] using hp)
  | allOfVal o vs => exact absurd (rtn h0 rfl h) (by rw [RtTy] <;> simp)
  | regexpT => exact absurd (rtn h0 rfl h) (by rw [RtTy] <;> simp)
  | timeT => exact absurd (rtn h0 rfl h) (by rw [RtTy] <;> simp)
  | metaMeta => exact absurd (rtn h0 rfl h) (by rw [RtTy] <;> simp)
  | sizedArr o e min max =>
    rw [auxPieces, named_none h0]
    split <;> exact (by decide : (91 : Nat) ≠ tDotdotdot)
  | sizedStr => rw [auxPieces, named_none h0]; exact (by decide : tIdentifier ≠ tDotdotdot)
  | bin => rw [auxPieces, named_none h0]; exact (by decide : tIdentifier ≠ tDotdotdot)
  | sizedMap => rw [auxPieces, named_none h0]; exact (by decide : tIdentifier ≠ tDotdotdot)
  | sens => rw [auxPieces, named_none h0]; exact (by decide : tIdentifier ≠ tDotdotdot)
  | metaT => rw [auxPieces, named_none h0]; exact (by decide : tIdentifier ≠ tDotdotdot)
  | tuple => rw [auxPieces, named_none h0]; exact (by decide : (123 : Nat) ≠ tDotdotdot)
  | struct => rw [auxPieces, named_none h0]; exact (by decide : (123 : Nat) ≠ tDotdotdot)
  | not => rw [auxPieces, named_none h0]; exact (by decide : (33 : Nat) ≠ tDotdotdot)
  | ciStr => rw [auxPieces, named_none h0]; exact (by decide : (126 : Nat) ≠ tDotdotdot)
  | arrT => rw [auxPieces, named_none h0]; exact (by decide : (91 : Nat) ≠ tDotdotdot)
  | pattern => rw [auxPieces, named_none h0]; exact (by decide : tRegexp ≠ tDotdotdot)
  | _ => rw [auxPieces, named_none h0]; exact (by decide : tIdentifier ≠ tDotdotdot)

theorem ty_first0 {N : Names} {S : SEnv} {E : PEnv} (st : Val → List Piece) {t : Ty} (h : RtN N S E t) (ho : startsOpen t = false) :
    (peekTok (toks S (auxPieces N S st commaPrio t))).type ≠ tDotdotdot := by
  cases h0 : N t with
  | some n => rw [nam_some h0]; exact (by decide : tIdentifier ≠ tDotdotdot)
  | none =>
  have hops : ∀ (ts : List Ty) (c : UInt8) (prio : Nat), 1 ≤ prio → c.toNat ≠ tDotdotdot → RtNs N S E ts → 2 ≤ ts.length →
      (∀ t u, ts = t :: u → openRange t = false) →
      (peekTok (toks S (ternary commaPrio (auxJoin N S st (.ch c) prio ts)))).type ≠ tDotdotdot := by
    intro ts c prio hp hc hr hl hf
    have e : ternary commaPrio (auxJoin N S st (.ch c) prio ts) = auxJoin N S st (.ch c) prio ts := by
      unfold ternary commaPrio orPrio; simp
    rw [e, toks_join]
    match ts, hl with
    | a :: b :: ts, _ =>
      have h1 := ty_first (N := N) st (prio := prio) (rtNs_mem hr a List.mem_cons_self) (hf a _ rfl) (Or.inr hp)
      rw [List.map_cons, List.map_cons, joinToks_cons]
      cases he : toks S (auxPieces N S st prio a) with
      | nil => exact hc
      | cons x xs => rw [he] at h1; exact h1
  cases t with
  | allOf o ts =>
    rw [auxPieces, named_none h0]; rw [RtN] at h; replace h := out h0 h
    refine hops ts _ _ (by decide) (by decide) h.1 h.2 ?_
    rintro t u rfl; exact ho
  | anyOf o ts =>
    rw [auxPieces, named_none h0]; rw [RtN] at h; replace h := out h0 h
    refine hops ts _ _ (by decide) (by decide) h.1 h.2 ?_
    rintro t u rfl; exact ho
  | oneOf o ts =>
    rw [auxPieces, named_none h0]; rw [RtN] at h; replace h := out h0 h
    refine hops ts _ _ (by decide) (by decide) h.1 h.2 ?_
    rintro t u rfl; exact ho
  | _ => exact ty_first st h ho (Or.inl rfl)


mutual
/-- A type that is read back is read back, wherever it stands. -/
theorem ty_rt {N : Names} {S : SEnv} {E : PEnv} (hN : NamesOk N E) (st : Val → List Piece) : (t : Ty) → RtN N S E t → TyOk N S E st t
  | .any, _ => by_name hN fun h0 => .of_te fun prio n hn => by rw [auxPieces, named_none h0] at hn ⊢; exact at_word hn fun _ _ _ => rfl
  | .nilT, _ => by_name hN fun h0 => .of_te fun prio n hn => by rw [auxPieces, named_none h0] at hn ⊢; exact at_word hn fun _ _ _ => rfl
  | .boolT, _ => by_name hN fun h0 => .of_te fun prio n hn => by rw [auxPieces, named_none h0] at hn ⊢; exact at_word hn fun _ _ _ => rfl
  | .intT, _ => by_name hN fun h0 => .of_te fun prio n hn => by rw [auxPieces, named_none h0] at hn ⊢; exact at_word hn fun _ _ _ => rfl
  | .floatT, _ => by_name hN fun h0 => .of_te fun prio n hn => by rw [auxPieces, named_none h0] at hn ⊢; exact at_word hn fun _ _ _ => rfl
  | .strT, _ => by_name hN fun h0 => .of_te fun prio n hn => by
    rw [auxPieces, named_none h0] at hn ⊢
    refine at_word hn fun rest te hr => ?_
    show pString E te rest = _
    unfold pString
    exact if_neg (fol_ne hr).2.1
  | .bin min max, h => by_name hN fun h0 => .of_te fun prio n hn => by
    replace h := rtn h0 rfl h; rw [RtTy] at h
    obtain ⟨rfl, rfl⟩ := h
    rw [auxPieces, named_none h0, if_pos ⟨rfl, rfl⟩] at hn ⊢
    exact at_word hn fun _ _ _ => rfl
  | .arrT, _ => by_name hN fun h0 => .of_te fun prio n hn => by
    rw [auxPieces, named_none h0] at hn ⊢
    obtain ⟨m, rfl⟩ : ∃ m, n = m + 1 := ⟨n - 1, by simp [toks_cons, toks_nil] at hn; omega⟩
    have hm : 1 ≤ m := by simp [toks_cons, toks_nil] at hn; omega
    exact at_array (S := S) hm (at_any hN hm) (min := 0) (max := maxInt)
      sizes_all rfl
  | .mapT, _ => by_name hN fun h0 => .of_te fun prio n hn => by
    rw [auxPieces, named_none h0] at hn ⊢
    obtain ⟨m, rfl⟩ : ∃ m, n = m + 1 := ⟨n - 1, by simp [toks_cons, toks_nil] at hn; omega⟩
    have hm : 1 ≤ m := by simp [toks_cons, toks_nil] at hn; omega
    have ha := at_any (S := S) hN hm
    have := at_map (S := S) hm ha.un.any ha (min := 0) (max := maxInt) sizes_all
    have e : toks S ([.word wMap, .ch 91] ++ named N .any [.word wAny] ++ [.ch 93] ++ named N .any [.word wAny]) =
        ⟨wMap, tIdentifier⟩ :: chTok 91 :: (toks S (named N .any [.word wAny]) ++ (if (0 : Int) = 0 ∧ maxInt = maxInt then [] else chTok 44 :: toks S (sizeBoundaries 0 maxInt)) ++ [chTok 93] ++ toks S (named N .any [.word wAny])) := by
      simp [toks_append, toks_cons, toks_nil, Piece.tok, chTok]
    rw [e]; exact this
  | .exact v, h => by_name hN fun h0 => .of_te fun prio n hn => by
    rw [auxPieces, named_none h0] at hn ⊢
    replace h := rtn h0 rfl h; rw [RtTy] at h
    have := val_rt st v h.2 n hn
    have e : pvOf (.exact v) = pvVal v := by cases v <;> first | rfl | (simp [scalar] at h)
    rw [e]; exact this
  | .intRange min max inclusive, h => by_name hN fun h0 => .of_te fun prio n hn => by
    rw [auxPieces, named_none h0] at hn ⊢
    replace h := rtn h0 rfl h; rw [RtTy] at h
    refine at_intRange ?_ h.1 h.2
    refine Nat.le_trans ?_ hn
    unfold intRangePieces; split <;> simp [toks]
  | .floatRange min max inclusive, h => by_name hN fun h0 => .of_te fun prio n hn => by
    rw [auxPieces, named_none h0] at hn ⊢
    refine at_floatRange ?_ (rtn h0 rfl h)
    refine Nat.le_trans ?_ hn
    unfold floatRangePieces; split <;> simp [toks]
  | .sizedStr min max, h => by_name hN fun h0 => .of_te fun prio n hn => by
    replace h := rtn h0 rfl h; rw [RtTy] at h
    rw [auxPieces, named_none h0, if_neg h.2, toks_append, toks_append, toks_append] at hn ⊢
    obtain ⟨m, rfl⟩ : ∃ m, n = m + 1 := ⟨n - 1, by simp [toks_cons, toks_nil] at hn; omega⟩
    exact at_sizedStr (by simp [toks_cons, toks_nil] at hn; omega) h.1 h.2
  | .ciStr s, h => by_name hN fun h0 => .of_un h0 rfl fun prio n hn => by
    replace h := rtn h0 rfl h; rw [RtTy] at h
    rw [auxPieces, named_none h0] at hn ⊢
    have h1 := pUnary_ci (E := E) (tk := chTok 126) rfl (at_str (E := E) (n := n) (by simp [toks_cons, toks_nil] at hn; omega) s).parses
    rw [h.1] at h1
    refine ⟨⟨chTok 126, _, rfl, by simp [Start, chTok], ?_⟩, h1⟩
    intro x hx
    simp [toks_cons, toks_nil, Piece.tok] at hx; subst hx; exact ⟨show tString ≠ 58 by decide, show tString ≠ 63 by decide⟩
  | .pattern rx, h => by_name hN fun h0 => .of_te fun prio n hn => by
    replace h := rtn h0 rfl h; rw [RtTy] at h
    rw [auxPieces, named_none h0] at hn ⊢
    exact at_rx hn h.2
  | .exactD o v, h => by_name hN fun h0 => .of_te fun prio n hn => by
    rw [auxPieces, named_none h0] at hn ⊢
    replace h := rtn h0 rfl h; rw [RtTy] at h
    have := val_rt st v h.2 n hn
    have e : pvOf (.exactD o v) = pvVal v := by
      rcases rtVal_cases h.2 with h' | ⟨vs, rfl⟩ | ⟨es, rfl⟩
      · rw [h.1] at h'; cases h'
      · rfl
      · rfl
    rw [e]; exact this
  | .sizedArr o e min max, h => by_name hN fun h0 => .of_te fun prio n hn => by
    rw [RtN] at h; replace h := out h0 h
    obtain ⟨he, hpl, hs, hne, hx⟩ := h
    have ht : toks S (auxPieces N S st prio (.sizedArr o e min max)) =
        chTok 91 :: (bracketSizes S min max ++ [chTok 93] ++ toks S (auxPieces N S st typePrio e)) := by
      rw [auxPieces, named_none h0]
      unfold bracketSizes
      split
      · rfl
      · rw [toks_append, toks_append, toks_append]
        simp [toks_cons, toks_nil, Piece.tok, chTok]
    rw [ht] at hn ⊢
    obtain ⟨m, rfl⟩ : ∃ m, n = m + 1 := ⟨n - 1, by simp at hn; omega⟩
    refine at_array (by simp at hn; omega) ((ty_rt hN st e he typePrio m ?_).2.2 (Or.inr (by decide)) hpl) hs ?_
    · simp at hn; omega
    · rw [pvOf_asTypeN hN he]
      unfold Types.newArrayType
      rw [clampSizes_ok hs]
      dsimp only
      rw [strip_isAny, strip_isExact, if_neg hne, if_neg, strip]
      intro hc
      exact hx ⟨hc.1, by omega, hc.2.2⟩
  | .tuple o ts variadic, h => by_name hN fun h0 => .of_te fun prio n hn => by
    rw [RtN] at h; replace h := out h0 h
    obtain ⟨hts, hne, hv⟩ := h
    have ih := tys_rt hN st ts hts
    cases variadic with
    | false =>
      simp only [Bool.false_eq_true, if_false] at hv
      have ht : toks S (auxPieces N S st prio (.tuple o ts false)) =
          chTok 123 :: (joinToks (chTok 44) ((ts.map fun t => (toks S (auxPieces N S st commaPrio t), pvOf t)).map (·.1)) ++ [chTok 125]) := by
        rw [auxPieces, named_none h0, toks_append, toks_append, toks_tuple, List.map_map]; rfl
      rw [ht] at hn ⊢
      obtain ⟨m, rfl⟩ : ∃ m, n = m + 1 := ⟨n - 1, by simp at hn; omega⟩
      refine at_tuple (by simpa using hne) ?_ ?_
      · intro x hx
        obtain ⟨t, ht, rfl⟩ := List.mem_map.1 hx
        refine ⟨(ih t ht commaPrio m ?_).1, ty_first0 st (rtNs_mem hts t ht) (hv.1 t ht)⟩
        have := joinToks_le (chTok 44) (List.mem_map_of_mem (f := (·.1)) hx)
        simp only [List.length_cons, List.length_append, List.length_nil] at hn
        dsimp only at this
        omega
      · rw [map_asTypeN hN hts]; exact newTuple_strips (S := S) (E := E) hne hv.2
    | true =>
      simp only [if_true] at hv
      obtain ⟨us, l, rfl⟩ : ∃ us l, ts = us ++ [l] := ⟨_, _, (List.dropLast_concat_getLast hne).symm⟩
      rw [List.dropLast_concat] at hv
      have ht : toks S (auxPieces N S st prio (.tuple o (us ++ [l]) true)) =
          chTok 123 :: (joinToks (chTok 44) ((us.map fun t => (toks S (auxPieces N S st commaPrio t), pvOf t)).map (·.1) ++
            [Piece.tok S .dots3 :: toks S (auxPieces N S st commaPrio l)]) ++ [chTok 125]) := by
        rw [auxPieces, named_none h0, toks_append, toks_append, toks_variadic, List.map_map]; rfl
      rw [ht] at hn ⊢
      obtain ⟨m, rfl⟩ : ∃ m, n = m + 1 := ⟨n - 1, by simp at hn; omega⟩
      simp only [List.length_cons, List.length_append, List.length_nil] at hn
      refine at_variadic (S := S) (last := (toks S (auxPieces N S st commaPrio l), pvOf l)) ?_ ((ih l (by simp) commaPrio m ?_).1) ?_
      · intro x hx
        obtain ⟨t, ht, rfl⟩ := List.mem_map.1 hx
        refine ⟨(ih t (List.mem_append_left _ ht) commaPrio m ?_).1, ty_first0 st (rtNs_mem hts t (List.mem_append_left _ ht)) (hv t ht)⟩
        have := joinToks_le (chTok 44) (List.mem_append_left [Piece.tok S .dots3 :: toks S (auxPieces N S st commaPrio l)] (List.mem_map_of_mem (f := (·.1)) hx))
        dsimp only at this
        omega
      · have := joinToks_le (chTok 44) (List.mem_append_right ((us.map fun t => (toks S (auxPieces N S st commaPrio t), pvOf t)).map (·.1))
          (List.mem_singleton.2 (rfl : Piece.tok S .dots3 :: toks S (auxPieces N S st commaPrio l) = _)))
        simp only [List.length_cons] at this
        omega
      · have e : (List.map (fun x : List Token × PV => x.2.asType) (us.map fun t => (toks S (auxPieces N S st commaPrio t), pvOf t)) ++ [(pvOf l).asType]) =
            strips (us ++ [l]) := by
          rw [← map_asTypeN hN hts fun t => toks S (auxPieces N S st commaPrio t), List.map_append, List.map_append]; rfl
        show Types.newTupleType O (_ ++ [(pvOf l).asType]) true = _
        rw [e]; exact newTuple_variadic (by simp)
  | .sizedMap o k v min max, h => by_name hN fun h0 => .of_te fun prio n hn => by
    rw [RtN] at h; replace h := out h0 h
    obtain ⟨hk, hv, hpl, hs, hne⟩ := h
    have ht : toks S (auxPieces N S st prio (.sizedMap o k v min max)) = ⟨wMap, tIdentifier⟩ :: chTok 91 ::
      (toks S (auxPieces N S st commaPrio k) ++ (if min = 0 ∧ max = maxInt then [] else chTok 44 :: toks S (sizeBoundaries min max)) ++ [chTok 93] ++
        toks S (auxPieces N S st typePrio v)) := by
      rw [auxPieces, named_none h0]
      split <;> simp [toks_append, toks_cons, toks_nil, Piece.tok, chTok]
    rw [ht] at hn ⊢
    obtain ⟨m, rfl⟩ : ∃ m, n = m + 1 := ⟨n - 1, by simp at hn; omega⟩
    simp only [List.length_cons, List.length_append, List.length_nil] at hn
    have := at_map (S := S) (by omega) (ty_rt hN st k hk commaPrio m (by omega)).1
      ((ty_rt hN st v hv typePrio m (by omega)).2.2 (Or.inr (by decide)) hpl) hs
    rw [pvOf_asTypeN hN hk, pvOf_asTypeN hN hv] at this
    have e : Types.newMapType O (strip k) (strip v) min max = strip (.sizedMap o k v min max) := by
      unfold Types.newMapType
      rw [clampSizes_ok hs]
      dsimp only
      rw [strip_isAny, strip_isAny, if_neg hne, strip]
    rw [e] at this
    exact this
  | .struct o additional fs, h => by_name hN fun h0 => .of_te fun prio n hn => by
    rw [RtN] at h; replace h := out h0 h
    have ih := fields_rt hN st fs h.1
    have ht : toks S (auxPieces N S st prio (.struct o additional fs)) = chTok 123 :: (joinToks (chTok 44)
        ((fs.map fun f => (⟨toks S (valPieces S st f.1), pvVal f.1, !f.2.1, toks S (auxPieces N S st commaPrio f.2.2), pvOf f.2.2⟩ : FieldItem)).map (·.toks) ++
          if additional then [[Piece.tok S .dots3]] else []) ++ [chTok 125]) := by
      have e : ((fun f : FieldItem => f.toks) ∘ fun f : Val × Bool × Ty => (⟨toks S (valPieces S st f.1), pvVal f.1, !f.2.1, toks S (auxPieces N S st commaPrio f.2.2), pvOf f.2.2⟩ : FieldItem)) =
          fun f => toks S (valPieces S st f.1) ++ ((if f.2.1 then [] else [chTok 63]) ++ chTok 58 :: toks S (auxPieces N S st commaPrio f.2.2)) := by
        funext f
        obtain ⟨k, rq, t⟩ := f
        cases rq <;> simp [FieldItem.toks]
      rw [auxPieces, named_none h0, toks_append, toks_append, toks_append, toks_fields, List.map_map, e]
      cases additional with
      | false => simp [toks_cons, toks_nil, Piece.tok, chTok]
      | true =>
        simp only [if_true]
        cases fs with
        | nil => rfl
        | cons f fs =>
          rw [joinToks_snoc _ _ _ (by simp)]
          simp [toks_cons, toks_nil, Piece.tok, chTok]
    have hlen : 2 ≤ n := by
      rw [auxPieces, named_none h0] at hn
      simp [toks_append, toks_cons, toks_nil] at hn; omega
    obtain ⟨m, rfl⟩ : ∃ m, n = m + 1 := ⟨n - 1, by omega⟩
    have hle : ∀ f ∈ fs, (toks S (valPieces S st f.1)).length ≤ m ∧ (toks S (auxPieces N S st commaPrio f.2.2)).length ≤ m := by
      intro f hf
      have hmem := List.mem_map_of_mem (f := fun f : Val × Bool × Ty => toks S (valPieces S st f.1) ++ ((if f.2.1 then [] else [chTok 63]) ++
        chTok 58 :: toks S (auxPieces N S st commaPrio f.2.2))) hf
      have := joinToks_le (chTok 44) hmem
      rw [auxPieces, named_none h0, toks_append, toks_append, toks_append, toks_fields] at hn
      simp only [List.length_cons, List.length_append, List.length_nil, toks_cons, toks_nil] at hn this
      omega
    rw [ht]
    refine at_struct (by omega) ?_ ?_ ?_
    · intro f hf
      obtain ⟨e, he, rfl⟩ := List.mem_map.1 hf
      obtain ⟨h1, h2, h3⟩ := rtNF_mem h.1 e he
      exact ⟨key_ok h1 h2 (val_rt st e.1 h1 m (hle e he).1) _ _, (ih e he commaPrio m (hle e he).2).1.parses⟩
    · intro f hf
      obtain ⟨e, he, rfl⟩ := List.mem_map.1 hf
      obtain ⟨t, ts, h1, h2, _⟩ := val_head st (rtNF_mem h.1 e he).1
      exact ⟨t, ts, h1, h2⟩
    · rw [List.map_map]
      exact makeStruct_fieldsN hN h.1 h.2
  | .allOf o ts, h => by_name hN fun h0 => by rw [RtN] at h; replace h := out h0 h; exact ok_allOf hN h0 h.1 h.2 (tys_rt hN st ts h.1)
  | .anyOf o ts, h => by_name hN fun h0 => by rw [RtN] at h; replace h := out h0 h; exact ok_anyOf hN h0 h.1 h.2 (tys_rt hN st ts h.1)
  | .oneOf o ts, h => by_name hN fun h0 => by rw [RtN] at h; replace h := out h0 h; exact ok_oneOf hN h0 h.1 h.2 (tys_rt hN st ts h.1)
  | .not t, h => by_name hN fun h0 => .of_un h0 rfl fun prio n hn => by
    rw [RtN] at h; replace h := out h0 h
    rw [auxPieces, named_none h0, toks_append] at hn ⊢
    change (toks S (auxPieces N S st typePrio t)).length + 1 ≤ n at hn
    by_cases hc : (∃ s, t = .ciStr s) ∧ N t = none
    · obtain ⟨⟨s, rfl⟩, h1⟩ := hc
      have h3 := h1
      have h1 := rtn h3 rfl h.1
      rw [RtTy] at h1
      have h2 := pUnary_notCi (E := E) (tn := chTok 33) (tk := chTok 126) rfl rfl (at_str (E := E) (n := n) (by omega) s).parses
      rw [h1.1] at h2
      rw [auxPieces, named_none h3]
      refine ⟨⟨chTok 33, _, rfl, by simp [Start, chTok], ?_⟩, h2⟩
      intro x hx
      simp [toks_cons, toks_nil, Piece.tok] at hx; subst hx; decide
    · have hpl : plain t = true ∨ ∃ s, N t = some s := by
        cases h3 : N t with
        | some s => exact Or.inr ⟨s, rfl⟩
        | none =>
          left
          cases t <;> first | rfl | exact absurd rfl (h.2 _) | exact absurd ⟨⟨_, rfl⟩, h3⟩ hc
      have ih := (ty_rt hN st t h.1 typePrio n (by omega)).2.2 (Or.inr (by decide)) hpl
      obtain ⟨x, xs, h1, h2, h3, h4, h5⟩ := ih.head
      have hp := ih.parses
      rw [h1] at hp ⊢
      have h6 := pUnary_not (E := E) (tk := chTok 33) rfl hp h4
      have e : Types.notType (pvOf t).asType = strip (.not t) := by
        rw [pvOf_asTypeN hN h.1, strip]
        have hn : ∀ u, strip t ≠ .not u := by
          intro u hu
          cases t <;> simp [strip] at hu
          exact h.2 _ rfl
        cases hs : strip t <;> first | rfl | exact absurd hs (hn _)
      rw [e] at h6
      refine ⟨⟨chTok 33, _, rfl, by simp [Start, chTok], ?_⟩, h6⟩
      intro y hy
      simp at hy; subst hy
      exact ⟨(headStart h2).1, (headStart h2).2.1⟩
  | .sens o t, h => by_name hN fun h0 => .of_te fun prio n hn => by
    rw [RtN] at h; replace h := out h0 h
    rw [auxPieces, named_none h0] at hn ⊢
    by_cases ha : t.isAny = true
    · have : t = .any := by cases t <;> first | rfl | cases ha
      subst this
      refine at_word (by simp [ha, toks_cons, toks_nil] at hn; omega) fun rest te hr => ?_
      show pSensitive E te rest = _
      unfold pSensitive
      exact (if_neg (fol_ne hr).2.1).trans (if_neg (by simp [(fol_ne hr).2.2.2.2.2.2]))
    · simp only [ha, Bool.false_eq_true, if_false, toks_append] at hn ⊢
      obtain ⟨m, rfl⟩ : ∃ m, n = m + 1 := ⟨n - 1, by simp [toks_cons, toks_nil] at hn; omega⟩
      have ih := (ty_rt hN st t h.1 prio m (by simp [toks_cons, toks_nil] at hn; omega)).1
      have e : pvOf t = .ty (strip t) := by
        cases t <;> first | rfl | exact absurd rfl h.2.1 | exact absurd rfl (h.2.2 _)
      rw [e] at ih
      exact at_sens ih
  | .metaT t, h => by_name hN fun h0 => .of_te fun prio n hn => by
    rw [RtN] at h; replace h := out h0 h
    rw [auxPieces, named_none h0] at hn ⊢
    by_cases ha : t.isAny = true
    · have : t = .any := by cases t <;> first | rfl | cases ha
      subst this
      refine at_word (by simp [ha, toks_cons, toks_nil] at hn; omega) fun rest te hr => ?_
      show pMeta E te rest = _
      unfold pMeta
      exact if_pos (fol_ne hr).2.1
    · simp only [ha, Bool.false_eq_true, if_false, toks_append] at hn ⊢
      obtain ⟨m, rfl⟩ : ∃ m, n = m + 1 := ⟨n - 1, by simp [toks_cons, toks_nil] at hn; omega⟩
      have ih := (ty_rt hN st t h prio m (by simp [toks_cons, toks_nil] at hn; omega)).1
      have := at_meta ih
      rw [pvOf_asTypeN hN h] at this
      exact this
  | .allOfVal _ _, h => by_name hN fun h0 => absurd (rtn h0 rfl h) (by rw [RtTy] <;> simp)
  | .regexpT, h => by_name hN fun h0 => absurd (rtn h0 rfl h) (by rw [RtTy] <;> simp)
  | .timeT, h => by_name hN fun h0 => absurd (rtn h0 rfl h) (by rw [RtTy] <;> simp)
  | .metaMeta, h => by_name hN fun h0 => absurd (rtn h0 rfl h) (by rw [RtTy] <;> simp)

theorem tys_rt {N : Names} {S : SEnv} {E : PEnv} (hN : NamesOk N E) (st : Val → List Piece) : (ts : List Ty) → RtNs N S E ts → ∀ t ∈ ts, TyOk N S E st t
  | [], _, v, hv => by cases hv
  | w :: ts, h, t, ht => by
    rw [RtNs] at h
    rcases List.mem_cons.1 ht with ht | ht
    · have := ty_rt hN st w h.1; rw [ht]; exact this
    · exact tys_rt hN st ts h.2 t ht

theorem fields_rt {N : Names} {S : SEnv} {E : PEnv} (hN : NamesOk N E) (st : Val → List Piece) : (fs : List (Val × Bool × Ty)) → RtNF N S E fs →
    ∀ f ∈ fs, TyOk N S E st f.2.2
  | [], _, v, hv => by cases hv
  | (k, rq, t) :: fs, h, f, hf => by
    rw [RtNF] at h
    rcases List.mem_cons.1 hf with hf | hf
    · have := ty_rt hN st t h.1.2.2; rw [hf]; exact this
    · exact fields_rt hN st fs h.2 f hf
end

theorem emb_name {N : Names} {S : SEnv} {E : PEnv} {st : Val → List Piece} {t : Ty} (hN : NamesOk N E) (prio : Nat)
    (h : N t = none → Emb S (auxPieces N S st prio t)) : Emb S (auxPieces N S st prio t) := by
  cases h0 : N t with
  | none => exact h h0
  | some s => rw [nam_some h0]; exact .word (hN t s h0).1

theorem emb_any {N : Names} {S : SEnv} {E : PEnv} (hN : NamesOk N E) : Emb S (named N .any [.word wAny]) := by
  cases h0 : N .any with
  | none => rw [named_none h0]; exact .word word_ok
  | some s => unfold named; rw [h0]; exact .word (hN _ s h0).1

mutual
theorem ty_emb {N : Names} {S : SEnv} {E : PEnv} (hN : NamesOk N E) (st : Val → List Piece) : (t : Ty) → RtN N S E t → ∀ prio, Emb S (auxPieces N S st prio t)
  | .any, _, _ => emb_name hN _ fun h0 => by rw [auxPieces, named_none h0]; exact .word word_ok
  | .nilT, _, _ => emb_name hN _ fun h0 => by rw [auxPieces, named_none h0]; exact .word word_ok
  | .boolT, _, _ => emb_name hN _ fun h0 => by rw [auxPieces, named_none h0]; exact .word word_ok
  | .intT, _, _ => emb_name hN _ fun h0 => by rw [auxPieces, named_none h0]; exact .word word_ok
  | .floatT, _, _ => emb_name hN _ fun h0 => by rw [auxPieces, named_none h0]; exact .word word_ok
  | .strT, _, _ => emb_name hN _ fun h0 => by rw [auxPieces, named_none h0]; exact .word word_ok
  | .bin min max, h, _ => emb_name hN _ fun h0 => by
    replace h := rtn h0 rfl h; rw [RtTy] at h; rw [auxPieces, named_none h0, if_pos h]; exact .word word_ok
  | .arrT, _, _ => emb_name hN _ fun h0 => by rw [auxPieces, named_none h0]; exact .ch punct (.ch punct (emb_any hN))
  | .mapT, _, _ => emb_name hN _ fun h0 => by
    rw [auxPieces, named_none h0]
    refine Emb.sep punct (Emb.append (a := [.word wMap]) (.word word_ok) (.ch punct (emb_any hN)) (Or.inr ⟨_, _, rfl⟩)) (emb_any hN)
  | .exact v, h, _ => emb_name hN _ fun h0 => by rw [auxPieces, named_none h0]; replace h := rtn h0 rfl h; rw [RtTy] at h; exact val_emb st v h.2
  | .exactD _ v, h, _ => emb_name hN _ fun h0 => by rw [auxPieces, named_none h0]; replace h := rtn h0 rfl h; rw [RtTy] at h; exact val_emb st v h.2
  | .intRange min max inclusive, h, _ => emb_name hN _ fun h0 => by
    rw [auxPieces, named_none h0]
    have := emb_range (S := S) (inclusive := inclusive) (a := if min ≠ Types.minI64 then some (.int min.toInt) else none)
      (b := if max ≠ Types.maxI64 then some (.int max.toInt) else none)
      (by intro p hp; split at hp <;> cases hp; exact ⟨True.intro, True.intro, True.intro⟩)
      (by intro p hp; split at hp <;> cases hp; exact ⟨.int _, True.intro⟩)
    unfold intRangePieces
    rw [ite_toList, ite_toList]; exact this
  | .floatRange min max inclusive, h, _ => emb_name hN _ fun h0 => by
    rw [auxPieces, named_none h0]
    replace h := rtn h0 rfl h; rw [RtTy] at h
    obtain ⟨_, h1, h2, h3⟩ := h
    have := emb_range (S := S) (inclusive := inclusive) (a := if !Value.F64.eq min Types.F64.min then some (.float min) else none)
      (b := if !Value.F64.eq max Types.F64.max then some (.float max) else none)
      (by
        intro p hp
        split at hp <;> cases hp
        rename_i hne
        rcases h1 with rfl | h1
        · exact absurd hne (by decide)
        · exact ⟨Or.inl h1.2.1, h1.2.1, h1.2.1⟩)
      (by intro p hp; split at hp <;> cases hp; exact ⟨.float h3.1, True.intro⟩)
    unfold floatRangePieces
    rw [ite_toList, ite_toList]; exact this
  | .sizedStr min max, h, _ => emb_name hN _ fun h0 => by
    rw [auxPieces, named_none h0]; split
    · exact Emb.append (.word word_ok) .nil (Or.inl rfl)
    · exact Emb.append (.word word_ok) (bracket_emb (sizes_emb _ _)) (Or.inr ⟨_, _, rfl⟩)
  | .ciStr s, h, _ => emb_name hN _ fun h0 => by rw [auxPieces, named_none h0]; replace h := rtn h0 rfl h; rw [RtTy] at h; exact .ch punct (.str h.2)
  | .pattern rx, h, _ => emb_name hN _ fun h0 => by rw [auxPieces, named_none h0]; replace h := rtn h0 rfl h; rw [RtTy] at h; exact .rx h.1
  | .sizedArr _ e min max, h, _ => emb_name hN _ fun h0 => by
    rw [auxPieces, named_none h0]; rw [RtN] at h; replace h := out h0 h
    have ih := ty_emb hN st e h.1 typePrio
    split
    · exact .ch punct (.ch punct ih)
    · have := Emb.sep (c := 93) punct (Emb.ch (c := 91) punct (sizes_emb min max)) ih
      exact this
  | .tuple _ ts variadic, h, _ => emb_name hN _ fun h0 => by rw [auxPieces, named_none h0]; rw [RtN] at h; replace h := out h0 h; exact .brace (tuple_emb hN st variadic ts h.1)
  | .sizedMap _ k v min max, h, _ => emb_name hN _ fun h0 => by
    rw [auxPieces, named_none h0]; rw [RtN] at h; replace h := out h0 h
    have hk := ty_emb hN st k h.1 commaPrio
    have hv := ty_emb hN st v h.2.1 typePrio
    refine Emb.sep punct ?_ hv
    refine Emb.append ?_ ?_ ?_
    · exact Emb.append (a := [.word wMap]) (.word word_ok) (.ch punct hk) (Or.inr ⟨_, _, rfl⟩)
    · split
      · exact .nil
      · exact .ch punct (sizes_emb _ _)
    · split
      · exact Or.inl rfl
      · exact Or.inr ⟨_, _, rfl⟩
  | .struct _ additional fs, h, _ => emb_name hN _ fun h0 => by
    rw [auxPieces, named_none h0]; rw [RtN] at h; replace h := out h0 h
    have hf := fields_emb hN st fs h.1
    have : ∀ a b : List Piece, [.ch 123] ++ a ++ b ++ [.ch 125] = [.ch 123] ++ (a ++ b) ++ [.ch 125] := fun a b => by simp
    rw [this]
    refine .brace ?_
    cases additional with
    | false => simpa using hf
    | true =>
      cases fs with
      | nil => exact .dots3 .nil
      | cons f fs => exact Emb.append hf (.ch punct (.dots3 .nil)) (Or.inr ⟨_, _, rfl⟩)
  | .allOf _ ts, h, prio => emb_name hN _ fun h0 => by rw [auxPieces, named_none h0]; rw [RtN] at h; replace h := out h0 h; exact ternary_emb (join_emb hN st punct _ ts h.1)
  | .anyOf _ ts, h, prio => emb_name hN _ fun h0 => by rw [auxPieces, named_none h0]; rw [RtN] at h; replace h := out h0 h; exact ternary_emb (join_emb hN st punct _ ts h.1)
  | .oneOf _ ts, h, prio => emb_name hN _ fun h0 => by rw [auxPieces, named_none h0]; rw [RtN] at h; replace h := out h0 h; exact ternary_emb (join_emb hN st punct _ ts h.1)
  | .not t, h, _ => emb_name hN _ fun h0 => by rw [auxPieces, named_none h0]; rw [RtN] at h; replace h := out h0 h; exact .ch punct (ty_emb hN st t h.1 _)
  | .sens _ t, h, prio => emb_name hN _ fun h0 => by
    rw [auxPieces, named_none h0]; rw [RtN] at h; replace h := out h0 h
    split
    · exact Emb.append (.word word_ok) .nil (Or.inl rfl)
    · exact Emb.append (.word word_ok) (bracket_emb (ty_emb hN st t h.1 prio)) (Or.inr ⟨_, _, rfl⟩)
  | .metaT t, h, prio => emb_name hN _ fun h0 => by
    rw [auxPieces, named_none h0]; rw [RtN] at h; replace h := out h0 h
    split
    · exact Emb.append (.word word_ok) .nil (Or.inl rfl)
    · exact Emb.append (.word word_ok) (bracket_emb (ty_emb hN st t h prio)) (Or.inr ⟨_, _, rfl⟩)
  | .allOfVal _ _, h, _ => emb_name hN _ fun h0 => absurd (rtn h0 rfl h) (by rw [RtTy] <;> simp)
  | .regexpT, h, _ => emb_name hN _ fun h0 => absurd (rtn h0 rfl h) (by rw [RtTy] <;> simp)
  | .timeT, h, _ => emb_name hN _ fun h0 => absurd (rtn h0 rfl h) (by rw [RtTy] <;> simp)
  | .metaMeta, h, _ => emb_name hN _ fun h0 => absurd (rtn h0 rfl h) (by rw [RtTy] <;> simp)

theorem join_emb {N : Names} {S : SEnv} {E : PEnv} (hN : NamesOk N E) (st : Val → List Piece) {c : UInt8} (hc : Punct c) (prio : Nat) : (ts : List Ty) → RtNs N S E ts →
    Emb S (auxJoin N S st (.ch c) prio ts)
  | [], _ => by rw [auxJoin]; exact .nil
  | [t], h => by rw [auxJoin]; rw [RtNs] at h; exact ty_emb hN st t h.1 prio
  | t :: u :: ts, h => by
    rw [auxJoin]
    · rw [RtNs] at h
      exact .sep hc (ty_emb hN st t h.1 prio) (join_emb hN st hc prio (u :: ts) h.2)
    · simp

theorem tuple_emb {N : Names} {S : SEnv} {E : PEnv} (hN : NamesOk N E) (st : Val → List Piece) (variadic : Bool) : (ts : List Ty) → RtNs N S E ts →
    Emb S (auxTuple N S st variadic ts)
  | [], _ => by rw [auxTuple]; exact .nil
  | [t], h => by
    rw [auxTuple]; rw [RtNs] at h
    have := ty_emb hN st t h.1 commaPrio
    cases variadic
    · exact this
    · exact .dots3 this
  | t :: u :: ts, h => by
    rw [auxTuple]
    · rw [RtNs] at h
      exact .sep punct (ty_emb hN st t h.1 commaPrio) (tuple_emb hN st variadic (u :: ts) h.2)
    · simp

theorem fields_emb {N : Names} {S : SEnv} {E : PEnv} (hN : NamesOk N E) (st : Val → List Piece) : (fs : List (Val × Bool × Ty)) → RtNF N S E fs →
    Emb S (auxFields N S st fs)
  | [], _ => by rw [auxFields]; exact .nil
  | [(k, rq, t)], h => by
    rw [auxFields]; rw [RtNF] at h
    have ht := ty_emb hN st t h.1.2.2 commaPrio
    have hk := val_emb st k h.1.1
    refine .sep punct ?_ ht
    cases rq
    · exact Emb.append hk (.ch punct .nil) (Or.inr ⟨_, _, rfl⟩)
    · exact Emb.append hk .nil (Or.inl rfl)
  | (k, rq, t) :: f :: fs, h => by
    rw [auxFields]
    · rw [RtNF] at h
      have ht := ty_emb hN st t h.1.2.2 commaPrio
      have hk := val_emb st k h.1.1
      have hfs := fields_emb hN st (f :: fs) h.2
      refine .sep punct (.sep punct ?_ ht) hfs
      cases rq
      · exact Emb.append hk (.ch punct .nil) (Or.inr ⟨_, _, rfl⟩)
      · exact Emb.append hk .nil (Or.inl rfl)
    · simp
end


/-- **The round trip**: what is printed for a type that is read back parses to that type. -/
theorem parse_typeString {N : Names} {S : SEnv} {E : PEnv} (hN : NamesOk N E) (hp : ∀ c < 32, S.isPrint c = false) {t : Ty} (h : RtN N S E t) :
    parse E (typeStringWith N S t) = .ok (pvOf t) := by
  have hc := ty_emb hN (sensPieces S) t h commaPrio [] (Or.inl rfl) True.intro
  rw [List.append_nil] at hc
  have h1 := ((ty_rt hN (sensPieces S) t h) commaPrio (((toks S (auxPieces N S (sensPieces S) commaPrio t)) ++ [(⟨[], tEnd⟩ : Token)]).length + 1)
    (by simp; omega)).1.parses [⟨[], tEnd⟩] (by simp [FolAny, FolOne, FolAll, Fol, peekTok, tEnd])
  unfold parse typeStringWith
  rw [aux_eq (no_vals hN)]
  rw [tokens_pieces hp hc]
  dsimp only
  unfold parseTokens
  rw [h1]
  rfl

mutual
/-- Without names -/
theorem aux_plain (S : SEnv) (st : Val → List Piece) (prio : Nat) : (t : Ty) → auxPieces (fun _ => none) S st prio t = tyPieces S st prio t
  | .sizedArr _ e _ _ => by rw [auxPieces, tyPieces, aux_plain S st _ e]; rfl
  | .tuple _ ts _ => by rw [auxPieces, tyPieces, tuple_plain S st _ ts]; rfl
  | .sizedMap _ k v _ _ => by rw [auxPieces, tyPieces, aux_plain S st _ k, aux_plain S st _ v]; rfl
  | .struct _ _ fs => by rw [auxPieces, tyPieces, fields_plain S st fs]; rfl
  | .allOf _ ts => by rw [auxPieces, tyPieces, join_plain S st _ _ ts]; rfl
  | .anyOf _ ts => by rw [auxPieces, tyPieces, join_plain S st _ _ ts]; rfl
  | .oneOf _ ts => by rw [auxPieces, tyPieces, join_plain S st _ _ ts]; rfl
  | .not t => by rw [auxPieces, tyPieces, aux_plain S st _ t]; rfl
  | .sens _ t => by rw [auxPieces, tyPieces, aux_plain S st _ t]; rfl
  | .metaT t => by rw [auxPieces, tyPieces, aux_plain S st _ t]; rfl
  | .exact _ => rfl | .exactD .. => rfl | .allOfVal .. => rfl
  | .any => rfl | .nilT => rfl | .boolT => rfl | .intT => rfl | .floatT => rfl | .strT => rfl | .regexpT => rfl | .timeT => rfl
  | .arrT => rfl | .mapT => rfl | .intRange .. => rfl | .floatRange .. => rfl | .sizedStr .. => rfl | .ciStr .. => rfl
  | .pattern .. => rfl | .bin .. => rfl | .metaMeta => rfl
theorem join_plain (S : SEnv) (st : Val → List Piece) (sep : Piece) (prio : Nat) : (ts : List Ty) →
    auxJoin (fun _ => none) S st sep prio ts = joinPieces S st sep prio ts
  | [] => rfl
  | [t] => by rw [auxJoin, joinPieces, aux_plain S st _ t]
  | t :: u :: ts => by
    rw [auxJoin, joinPieces, aux_plain S st _ t, join_plain S st sep prio (u :: ts)]
    all_goals simp
theorem tuple_plain (S : SEnv) (st : Val → List Piece) (b : Bool) : (ts : List Ty) →
    auxTuple (fun _ => none) S st b ts = tuplePieces S st b ts
  | [] => rfl
  | [t] => by rw [auxTuple, tuplePieces, aux_plain S st _ t]
  | t :: u :: ts => by
    rw [auxTuple, tuplePieces, aux_plain S st _ t, tuple_plain S st b (u :: ts)]
    all_goals simp
theorem fields_plain (S : SEnv) (st : Val → List Piece) : (fs : List (Val × Bool × Ty)) →
    auxFields (fun _ => none) S st fs = fieldPieces S st fs
  | [] => rfl
  | [(k, rq, t)] => by rw [auxFields, fieldPieces, aux_plain S st _ t]
  | (k, rq, t) :: f :: fs => by
    rw [auxFields, fieldPieces, aux_plain S st _ t, fields_plain S st (f :: fs)]
    all_goals simp
end

end Verif.Text.Nam
