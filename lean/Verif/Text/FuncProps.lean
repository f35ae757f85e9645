import Verif.Text.FuncLemmas
import Verif.Text.NamedProps
import Verif.Print.Model
/-!
# C96: the text of a function type is read back
-/
set_option autoImplicit false
set_option linter.unusedVariables false
set_option linter.unusedSimpArgs false
namespace Verif.Text
open Verif.Value (Str Val F64)
open Verif.Types (Ty Oid maxInt)

/-! ## Specification -/

/-- Operands the first of which is made of operands itself: what is written with a parenthesis in front -/
def startsParen : Ty → Bool
  | .allOf _ (t :: _) | .anyOf _ (t :: _) | .oneOf _ (t :: _) => ternaryTy t
  | _ => false

/-- What is returned: nothing, the types of a tuple that is read back, or one type that is read back and that is not written with a parenthesis in
front.  Except for `...any`, the number of values does not vary (`FunctionType` panics if it does). -/
def OutsOk (S : SEnv) (E : PEnv) (outs : Ty) : Prop :=
  (ArgsOk S E outs ∨ ∃ o t, outs = .tuple o [t] false ∧ RtTy S E t ∧ t.isExact = false) ∧
    (∀ o t, outs = .tuple o [t] false → startsParen t = false) ∧
    ∀ o ts, outs = .tuple o ts true → ∃ t, ts = [t] ∧ t.isAny = true

/-- Function types that are read back -/
def RtFn (S : SEnv) (E : PEnv) (f : FnTy) : Prop := ArgsOk S E f.ins ∧ OutsOk S E f.outs

/-- The function type without the identities of the types in it -/
def stripFn (f : FnTy) : FnTy := ⟨strip f.ins, strip f.outs⟩

/-! ## Lemmas -/

theorem val_nopar {S : SEnv} {E : PEnv} (st : Val → List Piece) {v : Val} (h : RtVal S E v) :
    (peekTok (toks S (valPieces S st v))).type ≠ 40 := by
  rcases rtVal_cases h with h' | ⟨vs, rfl⟩ | ⟨es, rfl⟩
  · cases v with
    | bool b => rw [valPieces]; exact (by decide : tIdentifier ≠ 40)
    | int b => rw [valPieces]; exact (by decide : tInteger ≠ 40)
    | float b => rw [valPieces]; exact (by decide : tFloat ≠ 40)
    | str b => rw [valPieces]; exact (by decide : tString ≠ 40)
    | nil => rw [valPieces]; exact (by decide : tIdentifier ≠ 40)
    | _ => first | (rw [RtVal] at h; · exact h.elim
                    all_goals simp) | simp [scalar] at h'
  · rw [valPieces]; exact (by decide : (123 : Nat) ≠ 40)
  · rw [valPieces]; exact (by decide : (123 : Nat) ≠ 40)

theorem ty_nopar1 {S : SEnv} {E : PEnv} (st : Val → List Piece) {t : Ty} (h : RtTy S E t) (ho : ternaryTy t = false) {prio : Nat} :
    (peekTok (toks S (tyPieces S st prio t))).type ≠ 40 := by
  cases t with
  | exact v => rw [tyPieces]; rw [RtTy] at h; exact val_nopar st h.2
  | exactD o v => rw [tyPieces]; rw [RtTy] at h; exact val_nopar st h.2
  | intRange min max inclusive =>
    rw [tyPieces]; unfold intRangePieces
    split <;> cases inclusive <;> simp [toks_append, toks_cons, toks_nil, Piece.tok, peekTok, tDotdotdot, tDotdot, tInteger]
  | floatRange min max inclusive =>
    rw [tyPieces]; unfold floatRangePieces
    split <;> cases inclusive <;> simp [toks_append, toks_cons, toks_nil, Piece.tok, peekTok, tDotdotdot, tDotdot, tFloat]
  | allOf o ts => cases ho
  | anyOf o ts => cases ho
  | oneOf o ts => cases ho
  | allOfVal o vs => rw [RtTy] at h; · exact h.elim
                     all_goals simp
  | regexpT => rw [RtTy] at h; · exact h.elim
               all_goals simp
  | timeT => rw [RtTy] at h; · exact h.elim
             all_goals simp
  | metaMeta => rw [RtTy] at h; · exact h.elim
                all_goals simp
  | sizedArr o e min max =>
    rw [tyPieces]
    split <;> exact (by decide : (91 : Nat) ≠ 40)
  | sizedStr => rw [tyPieces]; exact (by decide : tIdentifier ≠ 40)
  | bin => rw [tyPieces]; exact (by decide : tIdentifier ≠ 40)
  | sizedMap => rw [tyPieces]; exact (by decide : tIdentifier ≠ 40)
  | sens => rw [tyPieces]; exact (by decide : tIdentifier ≠ 40)
  | metaT => rw [tyPieces]; exact (by decide : tIdentifier ≠ 40)
  | tuple => rw [tyPieces]; exact (by decide : (123 : Nat) ≠ 40)
  | struct => rw [tyPieces]; exact (by decide : (123 : Nat) ≠ 40)
  | not => rw [tyPieces]; exact (by decide : (33 : Nat) ≠ 40)
  | ciStr => rw [tyPieces]; exact (by decide : (126 : Nat) ≠ 40)
  | arrT => rw [tyPieces]; exact (by decide : (91 : Nat) ≠ 40)
  | pattern => rw [tyPieces]; exact (by decide : tRegexp ≠ 40)
  | _ => rw [tyPieces]; exact (by decide : tIdentifier ≠ 40)

theorem ty_nopar {S : SEnv} {E : PEnv} (st : Val → List Piece) {t : Ty} (h : RtTy S E t) (ho : startsParen t = false) :
    (peekTok (toks S (tyPieces S st commaPrio t))).type ≠ 40 := by
  have hops : ∀ (ts : List Ty) (c : UInt8) (prio : Nat), c.toNat ≠ 40 → RtTys S E ts → 2 ≤ ts.length →
      (∀ t u, ts = t :: u → ternaryTy t = false) →
      (peekTok (toks S (ternary commaPrio (joinPieces S st (.ch c) prio ts)))).type ≠ 40 := by
    intro ts c prio hc hr hl hf
    have e : ternary commaPrio (joinPieces S st (.ch c) prio ts) = joinPieces S st (.ch c) prio ts := by
      unfold ternary commaPrio orPrio; simp
    rw [e, toks_join]
    match ts, hl with
    | a :: b :: ts, _ =>
      have h1 := ty_nopar1 st (prio := prio) (rtTys_mem hr a List.mem_cons_self) (hf a _ rfl)
      rw [List.map_cons, List.map_cons, joinToks_cons]
      cases he : toks S (tyPieces S st prio a) with
      | nil => exact hc
      | cons x xs => rw [he] at h1; exact h1
  cases t with
  | allOf o ts =>
    rw [tyPieces]; rw [RtTy] at h
    exact hops ts _ _ (by decide) h.1 h.2 (by rintro t u rfl; exact ho)
  | anyOf o ts =>
    rw [tyPieces]; rw [RtTy] at h
    exact hops ts _ _ (by decide) h.1 h.2 (by rintro t u rfl; exact ho)
  | oneOf o ts =>
    rw [tyPieces]; rw [RtTy] at h
    exact hops ts _ _ (by decide) h.1 h.2 (by rintro t u rfl; exact ho)
  | _ => exact ty_nopar1 st h rfl

/-- The tokens of a function type, given those of what follows the arguments -/
theorem fn_tokens {S : SEnv} {E : PEnv} (hp : ∀ c < 32, S.isPrint c = false) {ins : Ty} (h : ArgsOk S E ins) {tl : Str} {rest : List Token}
    (hr : tokens (runes tl) = .ok rest) :
    tokens (runes (textOfPieces S ([.word wFunc] ++ argsPieces S (sensPieces S) ins) ++ tl)) =
      .ok (⟨wFunc, tIdentifier⟩ :: chTok 40 :: (argToks S (sensPieces S) ins ++ chTok 41 :: rest)) := by
  have hc : Chain S ([.word wFunc] ++ argsPieces S (sensPieces S) ins) := by
    have hop : Opens (argsPieces S (sensPieces S) ins) := by
      have := h.tuple
      unfold isTupleTy at this
      split at this
      · rw [argsPieces]; exact Or.inr ⟨_, _, rfl⟩
      · rw [argsPieces]; exact Or.inr ⟨_, _, rfl⟩
      · cases this
    have := (Emb.append (a := [.word wFunc]) (.word word_ok) (args_emb (sensPieces S) h) hop) [] (Or.inl rfl) True.intro
    rwa [List.append_nil] at this
  rw [tokens_pieces_tail hp tl rest hr hc (fun p hq => args_last h.tuple _ p hq), toks_append, toks_args h.tuple]
  simp [toks_cons, toks_nil, Piece.tok]

/-- Reading the arguments -/
theorem pFunc_args {S : SEnv} {E : PEnv} {ins : Ty} (h : ArgsOk S E ins) {n : Nat} (hn : (argToks S (sensPieces S) ins).length ≤ n) (rest : List Token) :
    pFunc E (typeExpression E n) (chTok 40 :: (argToks S (sensPieces S) ins ++ chTok 41 :: rest)) =
      if (peekTok rest).type = 40 then
        match pList E (typeExpression E n) 41 rest.tail with
        | .error e => .error e
        | .ok (v, ts) =>
          match asTuple v with
          | .error e => .error e
          | .ok outs => (functionType (strip ins) outs).map fun f => (f, ts)
      else if isExpressionEnd (peekTok rest).type then (functionType (strip ins) (.tuple O [] false)).map fun f => (f, rest)
      else
        match pAnyOf E (typeExpression E n) (peekTok rest) rest.tail with
        | .error e => .error e
        | .ok (v, ts) =>
          match Types.newTupleType O [v.asType] false with
          | none => .error .badArgs
          | some outs => (functionType (strip ins) outs).map fun f => (f, ts) := by
  unfold pFunc
  rw [peekTok_cons, if_neg (show ¬ (chTok 40).type ≠ 40 by simp [chTok]), List.tail_cons, args_rt (sensPieces S) h hn]
  have ha : asTuple (.ty (strip ins)) = .ok (strip ins) := by
    unfold asTuple
    exact if_pos (strip_tuple h.tuple)
  dsimp only
  rw [ha]
  rfl

/-- What follows the arguments of a function type that is not variadic there -/
theorem functionType_fixed (ins outs : Ty) (h : ∀ o ts, outs = .tuple o ts true → ∃ t, ts = [t] ∧ t.isAny = true) :
    functionType ins outs = .ok ⟨ins, outs⟩ := by
  unfold functionType
  split
  · rename_i o ts
    obtain ⟨t, rfl, ht⟩ := h o ts rfl
    exact if_pos ⟨rfl, by simp [ht]⟩
  · rfl

theorem parseFn_of {E : PEnv} {text : Str} {ts : List Token} (ht : tokens (runes text) = .ok (⟨wFunc, tIdentifier⟩ :: ts)) (h61 : (peekTok ts).type ≠ 61)
    {f : FnTy} {u : Token} {us : List Token} (hu : u.type = tEnd) (hf : pFunc E (typeExpression E (ts.length + 2)) ts = .ok (f, u :: us)) :
    parseFn E text = .ok f := by
  unfold parseFn
  rw [ht]
  dsimp only
  unfold parseFnTokens
  rw [peekTok_cons, if_pos ⟨rfl, rfl⟩, List.tail_cons, if_neg h61, List.length_cons]
  rw [hf]
  dsimp only
  rw [peekTok_cons, hu, if_neg (by decide), if_neg (by decide)]

theorem fn_rt {S : SEnv} {E : PEnv} (hp : ∀ c < 32, S.isPrint c = false) {ins outs : Ty} {prio : Nat} (hi : ArgsOk S E ins)
    (ho : ArgsOk S E outs ∨ ∃ o t, outs = .tuple o [t] false ∧ RtTy S E t ∧ t.isExact = false ∧ (ternaryTy t = false ∨ prio = commaPrio))
    (hpar : ∀ o t, outs = .tuple o [t] false → prio = commaPrio → startsParen t = false)
    (hpr : prio = commaPrio ∨ 1 ≤ prio)
    (hvar : ∀ o ts, outs = .tuple o ts true → ∃ t, ts = [t] ∧ t.isAny = true) :
    parseFn E (fnText S prio ⟨ins, outs⟩) = .ok (stripFn ⟨ins, outs⟩) := by
  have hnil : tokens (runes []) = .ok [⟨[], tEnd⟩] := by rw [runes_nil]; exact tokens_end (t := ⟨[], tEnd⟩) rfl rfl
  have pieces : ∀ ps : List Piece, Emb S ps → tokens (runes (32 :: textOfPieces S ps)) = .ok (toks S ps ++ [⟨[], tEnd⟩]) := by
    intro ps hps
    have hc := hps [] (Or.inl rfl) True.intro
    rw [List.append_nil] at hc
    rw [tokens_blank, tokens_pieces hp hc]
  -- nothing is returned
  have nothing : ∀ o, outs = .tuple o [] false → parseFn E (fnText S prio ⟨ins, outs⟩) = .ok (stripFn ⟨ins, outs⟩) := by
    rintro o rfl
    refine parseFn_of (u := ⟨[], tEnd⟩) (us := []) (fn_tokens hp hi hnil) (by simp [peekTok_cons, chTok]) rfl ?_
    rw [pFunc_args hi (by simp only [List.length_cons, List.length_append]; omega)]
    rfl
  -- one type or value is returned
  have one : ∀ (ps : List Piece) (v : PV) (o' : Ty), outText S prio outs = 32 :: textOfPieces S ps → Emb S ps →
      (∀ n, (toks S ps).length ≤ n → AtAny E n (toks S ps) v) → (peekTok (toks S ps)).type ≠ 40 →
      Types.newTupleType O [v.asType] false = some o' → o' = strip outs → isTupleTy o' = true → (∀ o ts, o' ≠ .tuple o ts true) →
      parseFn E (fnText S prio ⟨ins, outs⟩) = .ok (stripFn ⟨ins, outs⟩) := by
    intro ps v o' htext hemb hat h40 hnew hso htup hfix
    obtain ⟨a, as, ha, hs, hh⟩ := (hat _ (Nat.le_refl _)).head
    rw [ha, peekTok_cons] at h40
    refine parseFn_of (u := ⟨[], tEnd⟩) (us := []) (fn_tokens hp hi (tl := outText S prio outs) (rest := toks S ps ++ [⟨[], tEnd⟩]) ?_)
      (by simp [peekTok_cons, chTok]) rfl ?_
    · rw [htext]; exact pieces ps hemb
    · rw [pFunc_args hi (by simp only [List.length_cons, List.length_append]; omega)]
      have hpar := (hat ((chTok 40 :: (argToks S (sensPieces S) ins ++ chTok 41 :: (toks S ps ++ [⟨[], tEnd⟩]))).length + 2)
        (by simp only [List.length_cons, List.length_append]; omega)).parses [⟨[], tEnd⟩] (peek_end E)
      have hpk : peekTok (toks S ps ++ [⟨[], tEnd⟩]) = a := by rw [ha]; rfl
      rw [if_neg (by rw [hpk]; exact h40), if_neg (by rw [hpk, (start_paren hs).2.1]; simp), hpar]
      dsimp only
      rw [hnew]
      dsimp only
      rw [functionType_fixed _ _ (fun o ts e => absurd e (hfix o ts)), hso]
      rfl
  -- several are returned
  have many : ArgsOk S E outs → outText S prio outs = 32 :: textOfPieces S (argsPieces S (sensPieces S) outs) →
      parseFn E (fnText S prio ⟨ins, outs⟩) = .ok (stripFn ⟨ins, outs⟩) := by
    intro ho htext
    refine parseFn_of (u := ⟨[], tEnd⟩) (us := []) (fn_tokens hp hi (tl := outText S prio outs)
      (rest := chTok 40 :: (argToks S (sensPieces S) outs ++ [chTok 41, ⟨[], tEnd⟩])) ?_) (by simp [peekTok_cons, chTok]) rfl ?_
    · rw [htext, pieces _ (args_emb (sensPieces S) ho), toks_args ho.tuple]; simp
    · rw [pFunc_args hi (by simp only [List.length_cons, List.length_append]; omega)]
      rw [peekTok_cons, if_pos (show (chTok 40).type = 40 from rfl), List.tail_cons,
        args_rt (sensPieces S) ho (by simp only [List.length_cons, List.length_append]; omega) [⟨[], tEnd⟩]]
      have ha : asTuple (.ty (strip outs)) = .ok (strip outs) := by
        unfold asTuple
        exact if_pos (strip_tuple ho.tuple)
      dsimp only
      rw [ha]
      dsimp only
      rw [functionType_fixed]
      · rfl
      · intro o ts e
        have ht := ho.tuple
        unfold isTupleTy at ht
        split at ht
        · rename_i o' ts' v
          rw [strip] at e
          cases e
          obtain ⟨t, rfl, hany⟩ := hvar _ _ rfl
          refine ⟨strip t, by rw [strips_map]; rfl, ?_⟩
          cases t <;> simp [Ty.isAny] at hany
          simp [strip, Ty.isAny]
        · rw [strip] at e; cases e
        · cases ht
  have single : ∀ o t, outs = .tuple o [t] false → RtTy S E t → t.isExact = false → (ternaryTy t = false ∨ prio = commaPrio) →
      parseFn E (fnText S prio ⟨ins, outs⟩) = .ok (stripFn ⟨ins, outs⟩) := by
    rintro o t rfl ht hx hq
    have hst : strip (.tuple o [t] false) = .tuple O (strips [t]) false := by rw [strip]
    refine one (tyPieces S (sensPieces S) prio t) (pvOf t) (.tuple O (strips [t]) false) ?_ (ty_emb _ t ht _)
      (fun n hn => (ty_rt (sensPieces S) t ht prio n hn).1) ?_ ?_ hst.symm rfl (by intro o ts e; cases e)
    · rw [outText]
    · rcases hq with hq | rfl
      · exact ty_nopar1 _ ht hq
      · exact ty_nopar _ ht (hpar o t rfl rfl)
    · rw [pvOf_asType ht]
      have := newTuple_strips (S := S) (E := E) (ts := [t]) (by simp) (by simp [hx])
      rw [strips_map] at this ⊢
      exact this
  rcases ho with ho | ⟨o, t, ho, ht, hx, hq⟩
  · rcases ho with ho' | ⟨htup, hrt⟩
    · obtain ⟨o, rfl⟩ := ho'
      exact nothing o rfl
    · have ho : ArgsOk S E outs := .inr ⟨htup, hrt⟩
      unfold isTupleTy at htup
      split at htup
      · rename_i o ts v
        have hr := hrt
        rw [RtTy] at hr
        match ts, v, hr with
        | [], v, hr => exact absurd rfl hr.2.1
        | [t], false, hr =>
          have hr1 := hr.1
          rw [RtTys] at hr1
          have hx := hr.2.2
          simp only [Bool.false_eq_true, if_false] at hx
          by_cases hq : ternaryTy t = false ∨ prio = commaPrio
          · exact single o t rfl hr1.1 (by simpa using hx.2) hq
          · rw [not_or] at hq
            refine many ho ?_
            rw [outText, argsPieces, tuplePieces]
            have hge : orPrio ≤ prio := by
              rcases hpr with h | h
              · exact absurd h hq.2
              · exact h
            have e : tyPieces S (sensPieces S) prio t = [.ch 40] ++ tyPieces S (sensPieces S) commaPrio t ++ [.ch 41] := by
              cases t with
              | allOf o ts => rw [tyPieces, tyPieces]; unfold ternary; simp [show 1 ≤ prio from hge, commaPrio, orPrio]
              | anyOf o ts => rw [tyPieces, tyPieces]; unfold ternary; simp [show 1 ≤ prio from hge, commaPrio, orPrio]
              | oneOf o ts => rw [tyPieces, tyPieces]; unfold ternary; simp [show 1 ≤ prio from hge, commaPrio, orPrio]
              | _ => exact absurd rfl hq.1
            rw [e]; simp
        | [t], true, hr => exact many ho (by rw [outText] <;> simp)
        | t :: u :: ts, v, hr => exact many ho (by rw [outText] <;> simp)
      · rename_i o vs
        have hr := hrt
        rw [RtTy, RtVal] at hr
        match vs, hr with
        | [], hr => exact absurd rfl hr.2.1
        | [v], hr =>
          have hv := hr.2.2
          rw [RtVals] at hv
          have hst : strip (.exactD o (.arr [v])) = .exactD O (.arr [v]) := by rw [strip]
          refine one (valPieces S (sensPieces S) v) (pvVal v) (.exactD O (.arr [v])) ?_ (val_emb _ v hv.1)
            (fun n hn => (val_rt (sensPieces S) v hv.1 n hn).un.any) (val_nopar _ hv.1) ?_ hst.symm rfl (by intro o ts e; cases e)
          · rw [outText]
          · exact newTuple_vals (S := S) (E := E) (vs := [v]) (by simp) (by intro w hw; simp at hw; subst hw; exact hv.1)
        | v :: u :: vs, hr => exact many ho (by rw [outText] <;> simp)
      · cases htup
  · exact single o t ho ht hx hq

/-! ## The property -/

/-- **C96** (partial) A function type that is printed and parsed again is the same type (`strip` forgets which object a type is, nothing
else).  `RtFn` says for which: there is any number of arguments, the last of which may stand for any number; nothing, one type or several
are returned.  The types in it are those of C35.  Partial: a type that is returned and written with a parenthesis in front is not read back
(`C96_violated`); function types inside of function types or of other types are not covered. -/
theorem C96_partial {S : SEnv} {E : PEnv} (hp : ∀ c < 32, S.isPrint c = false) {f : FnTy} (h : RtFn S E f) :
    parseFn E (fnString S f) = .ok (stripFn f) := by
  obtain ⟨hi, ho, hpar, hvar⟩ := h
  refine fn_rt hp hi ?_ (fun o t e _ => hpar o t e) (Or.inl rfl) hvar
  rcases ho with ho | ⟨o, t, e, ht, hx⟩
  · exact .inl ho
  · exact .inr ⟨o, t, e, ht, hx, .inr rfl⟩

/-- `func(int,...string) bool|nil|float` -/
def Ex.fn : FnTy := ⟨.tuple (.user 1) [.intT, .strT] true, .tuple (.user 2) [.anyOf (.user 3) [.boolT, .nilT, .floatT]] false⟩

theorem Ex.fn_ok (S : SEnv) (E : PEnv) : RtFn S E Ex.fn := by
  refine ⟨.inr ⟨rfl, ?_⟩, .inl (.inr ⟨rfl, ?_⟩), ?_, ?_⟩
  · simp [Ex.fn, RtTy, RtTys, startsOpen, openRange]
  · simp [Ex.fn, RtTy, RtTys, startsOpen, openRange, Ty.isExact]
  · intro o t h
    simp only [Ex.fn, Ty.tuple.injEq, List.cons.injEq, and_true] at h
    rw [← h.2]; rfl
  · intro o ts h; simp [Ex.fn] at h

example (S : SEnv) (E : PEnv) (hp : ∀ c < 32, S.isPrint c = false) : parseFn E (fnString S Ex.fn) = .ok (stripFn Ex.fn) ∧
    fnString S Ex.fn = Print.txt "func(int,...string) bool|nil|float" :=
  ⟨C96_partial hp (Ex.fn_ok S E), by
    simp [fnString, fnText, Ex.fn, argsPieces, outText, tuplePieces, tyPieces, joinPieces, ternary, textOfPieces, Piece.text, commaPrio, orPrio]
    decide⟩

/-- **C96** (partial) The text of a function type as it is written for an operand, or for the element of an array, is read back by itself.  There
one type that is returned and that is made of operands is written in parentheses, which are read as those around the types returned.  So
here it may begin with a parenthesis. -/
theorem C96_operand_partial {S : SEnv} {E : PEnv} (hp : ∀ c < 32, S.isPrint c = false) {f : FnTy} (hi : ArgsOk S E f.ins) (ho : ArgsOk S E f.outs)
    (hvar : ∀ o ts, f.outs = .tuple o ts true → ∃ t, ts = [t] ∧ t.isAny = true) {prio : Nat} (hpr : orPrio ≤ prio) :
    parseFn E (fnText S prio f) = .ok (stripFn f) :=
  fn_rt hp hi (.inl ho) (fun o t _ e => absurd e (by unfold orPrio at hpr; unfold commaPrio; omega)) (Or.inr hpr) hvar

/-- A function that returns `(int&string)|bool` -/
def Ex.paren : FnTy := ⟨.tuple (.user 1) [] false, .tuple (.user 2) [.anyOf (.user 3) [.allOf (.user 4) [.intT, .strT], .boolT]] false⟩

theorem Ex.paren_args (S : SEnv) (E : PEnv) : ArgsOk S E Ex.paren.ins ∧ ArgsOk S E Ex.paren.outs :=
  ⟨.inl ⟨_, rfl⟩, .inr ⟨rfl, by simp [Ex.paren, RtTy, RtTys, startsOpen, openRange, Ty.isExact]⟩⟩

example (S : SEnv) (E : PEnv) (hp : ∀ c < 32, S.isPrint c = false) : parseFn E (fnText S orPrio Ex.paren) = .ok (stripFn Ex.paren) ∧
    fnText S orPrio Ex.paren = Print.txt "func() ((int&string)|bool)" :=
  ⟨C96_operand_partial hp (Ex.paren_args S E).1 (Ex.paren_args S E).2 (by intro o ts h; simp [Ex.paren] at h) (Nat.le_refl _), by
    simp [fnText, Ex.paren, argsPieces, outText, tuplePieces, tyPieces, joinPieces, ternary, textOfPieces, Piece.text, commaPrio, orPrio, andPrio]
    decide⟩

/-- **C96 is violated.**
* The function that returns `(int&string)|bool` is printed as `func() (int&string)|bool`.  The parser takes the parentheses for those around
  the types that are returned: it reads a function that returns `int&string`, and `|` follows.
* `func() int|string` is the text of a function that returns `int|string` and is read as that.  It is also the text of the operands `func() int`
  and `string` with `|` in between, which is what is printed for the type that accepts both. -/
theorem C96_violated {S : SEnv} {E : PEnv} (hp : ∀ c < 32, S.isPrint c = false) (o : Oid) :
    (fnString S ⟨.tuple o [] false, .tuple o [.anyOf o [.allOf o [.intT, .strT], .boolT]] false⟩ = Print.txt "func() (int&string)|bool" ∧
      ∃ ts rest, tokens (runes (Print.txt "func() (int&string)|bool")) = .ok (⟨wFunc, tIdentifier⟩ :: ts) ∧
        pFunc E (typeExpression E (ts.length + 2)) ts = .ok (⟨.tuple O [] false, .tuple O [.allOf O [.intT, .strT]] false⟩, ⟨[], 124⟩ :: rest)) ∧
    (fnText S orPrio ⟨.tuple o [] false, .tuple o [.intT] false⟩ ++ Print.txt "|" ++ typeString S .strT = Print.txt "func() int|string" ∧
      parseFn E (Print.txt "func() int|string") = .ok ⟨.tuple O [] false, .tuple O [.anyOf O [.intT, .strT]] false⟩) := by
  refine ⟨⟨?_, ?_⟩, ?_, ?_⟩
  · simp [fnString, fnText, argsPieces, outText, tuplePieces, tyPieces, joinPieces, ternary, textOfPieces, Piece.text, commaPrio, orPrio, andPrio]
    decide
  · have e : Print.txt "func() (int&string)|bool" = textOfPieces S ([.word wFunc] ++ argsPieces S (sensPieces S) (.tuple o [] false)) ++
        (32 :: textOfPieces S [.ch 40, .word wInt, .ch 38, .word wString, .ch 41, .ch 124, .word wBool]) := by
      simp [argsPieces, tuplePieces, textOfPieces, Piece.text]
      decide
    have hc : Chain S [.ch 40, .word wInt, .ch 38, .word wString, .ch 41, .ch 124, .word wBool] := by
      have : Emb S [.ch 40, .word wInt, .ch 38, .word wString, .ch 41, .ch 124, .word wBool] :=
        .ch punct (Emb.sep (c := 38) (a := [.word wInt]) (b := [.word wString, .ch 41, .ch 124, .word wBool]) punct (.word word_ok)
          (Emb.append (a := [.word wString]) (.word word_ok) (.ch punct (.ch punct (.word word_ok))) (Or.inr ⟨_, _, rfl⟩)))
      have := this [] (Or.inl rfl) True.intro
      rwa [List.append_nil] at this
    have h := fn_tokens (E := E) (ins := .tuple o [] false) hp (.inl ⟨o, rfl⟩)
      (tl := 32 :: textOfPieces S [.ch 40, .word wInt, .ch 38, .word wString, .ch 41, .ch 124, .word wBool]) (by rw [tokens_blank]; exact tokens_pieces hp hc)
    rw [← e] at h
    exact ⟨_, [⟨wBool, tIdentifier⟩, ⟨[], tEnd⟩], h, by rw [argToks, tuplePieces]; rfl⟩
  · simp [typeString, fnText, argsPieces, outText, tuplePieces, tyPieces, textOfPieces, Piece.text]
    decide
  · have h := C96_partial hp (f := ⟨.tuple o [] false, .tuple o [.anyOf o [.intT, .strT]] false⟩) (E := E)
      ⟨.inl ⟨_, rfl⟩, .inl (.inr ⟨rfl, by simp [RtTy, RtTys, startsOpen, openRange, Ty.isExact]⟩),
        by intro o t h; cases h; rfl, by intro o ts h; cases h⟩
    have e : fnString S ⟨.tuple o [] false, .tuple o [.anyOf o [.intT, .strT]] false⟩ = Print.txt "func() int|string" := by
      simp [fnString, fnText, argsPieces, outText, tuplePieces, tyPieces, joinPieces, ternary, textOfPieces, Piece.text, commaPrio, orPrio]
      decide
    rw [e] at h
    rw [h]
    rfl

/-- **C96** (partial) Two function types that are read back are printed the same only if they are the same. -/
theorem C96_injective_partial {S : SEnv} {E : PEnv} (hp : ∀ c < 32, S.isPrint c = false) {f g : FnTy} (hf : RtFn S E f) (hg : RtFn S E g)
    (h : fnString S f = fnString S g) : stripFn f = stripFn g := by
  have h1 := C96_partial hp hf
  rw [h, C96_partial hp hg] at h1
  exact (Except.ok.inj h1).symm

example (S : SEnv) (E : PEnv) (hp : ∀ c < 32, S.isPrint c = false)
    (h : fnString S ⟨.tuple (.user 7) [] false, .tuple (.user 8) [] false⟩ = fnString S Ex.fn) :
    stripFn ⟨.tuple (.user 7) [] false, .tuple (.user 8) [] false⟩ = stripFn Ex.fn :=
  C96_injective_partial (E := E) hp ⟨.inl ⟨_, rfl⟩, .inl (.inl ⟨_, rfl⟩), by intro o t h; simp at h, by intro o ts h; simp at h⟩ (Ex.fn_ok S E) h

/-- **C96** What is returned has a fixed number of values: whatever text is parsed, the tuple of what is returned is not variadic, or it is
`...any`. -/
theorem C96_returns {E : PEnv} {text : Str} {f : FnTy} (h : parseFn E text = .ok f) {o : Oid} {ts : List Ty} (hv : f.outs = .tuple o ts true) :
    ∃ t, ts = [t] ∧ t.isAny = true := by
  have hft : ∀ {a b : Ty} {f : FnTy}, functionType a b = .ok f → f.outs = .tuple o ts true → ∃ t, ts = [t] ∧ t.isAny = true := by
    intro a b f h hv
    unfold functionType at h
    split at h
    · rename_i o' ts'
      split at h
      · rename_i hc
        cases h
        cases hv
        match ts, hc with
        | [t], hc => exact ⟨t, rfl, by simpa using hc.2⟩
      · cases h
    · rename_i hne
      cases h
      exact absurd hv (hne o ts)
  have hmap : ∀ {a b : Ty} {f : FnTy} {us us' : List Token}, ((functionType a b).map fun f => (f, us)) = .ok (f, us') → f.outs = .tuple o ts true →
      ∃ t, ts = [t] ∧ t.isAny = true := by
    intro a b f us us' h hv
    cases e : functionType a b with
    | error x => rw [e] at h; cases h
    | ok g => rw [e] at h; cases h; exact hft e hv
  unfold parseFn at h
  split at h
  · cases h
  · unfold parseFnTokens at h
    split at h
    · split at h
      · cases h
      · split at h
        · cases h
        · rename_i g us hp
          split at h
          · cases h
          · split at h
            · cases h
            · cases h
              unfold pFunc at hp
              split at hp
              · cases hp
              · split at hp
                · cases hp
                · split at hp
                  · cases hp
                  · split at hp
                    · split at hp
                      · cases hp
                      · split at hp
                        · cases hp
                        · exact hmap hp hv
                    · split at hp
                      · exact hmap hp hv
                      · split at hp
                        · cases hp
                        · split at hp
                          · cases hp
                          · exact hmap hp hv
    · cases h

example (S : SEnv) (E : PEnv) (hp : ∀ c < 32, S.isPrint c = false) :
    parseFn E (fnString S ⟨.tuple (.user 1) [.any] true, .tuple (.user 2) [.any] true⟩) = .ok ⟨.tuple O [.any] true, .tuple O [.any] true⟩ := by
  have := C96_partial hp (f := ⟨.tuple (.user 1) [.any] true, .tuple (.user 2) [.any] true⟩) (E := E)
    ⟨.inr ⟨rfl, by simp [RtTy, RtTys]⟩, .inl (.inr ⟨rfl, by simp [RtTy, RtTys]⟩), (by intro o t h; cases h), by intro o ts h; cases h; exact ⟨_, rfl, rfl⟩⟩
  rw [this]; rfl

end Verif.Text
