import Verif.Text.Func
import Verif.Text.Chains
import Verif.Text.NamedLemmas
/-!
# Lemmas for C96: lists in parentheses
-/
set_option autoImplicit false
set_option linter.unusedVariables false
set_option linter.unusedSimpArgs false
namespace Verif.Text
open Verif.Value (Str Val F64)
open Verif.Types (Ty Oid maxInt)

theorem elem_paren {E : PEnv} {te : Sub} {t : Token} {ts : List Token} {v : PV} (h : Parses (pAnyOf E te) FolAny (t :: ts) v)
    (hn : ∀ x, ts.head? = some x → x.type ≠ 58 ∧ x.type ≠ 63) {rest : List Token}
    (hr : (peekTok rest).type = 44 ∨ (peekTok rest).type = 41) :
    pElement E te t 0 (ts ++ rest) = .ok ((some (.one v), 0), rest) := by
  have hf : FolAny (peekTok rest).type := by
    rcases hr with h | h <;> rw [h] <;> simp [FolAny, FolOne, FolAll, Fol]
  have h := h rest hf
  have hp : (peekTok (ts ++ rest)).type ≠ 58 ∧ (peekTok (ts ++ rest)).type ≠ 63 := by
    cases ts with
    | nil => rw [List.nil_append]; omega
    | cons a ts => exact hn a rfl
  have hq : (peekTok rest).type ≠ 58 ∧ (peekTok rest).type ≠ 63 := by omega
  rw [List.cons_append, peekTok_cons, List.tail_cons] at h
  unfold pElement
  have e1 : ((peekTok (ts ++ rest)).type == 58) = false := by simp [hp.1]
  have e2 : ((peekTok (ts ++ rest)).type == 63) = false := by simp [hp.2]
  have e3 : ((peekTok rest).type == 63) = false := by simp [hq.2]
  simp [e1, e2, h, e3, hq.1]

/-- A token list that an element may have: it does not begin with an ellipsis or a closing parenthesis, and its first token is not followed by `:`
or `?` -/
def ElemParen (ts : List Token) : Prop :=
  ∃ t ts', ts = t :: ts' ∧ t.type ≠ tDotdotdot ∧ t.type ≠ 41 ∧ ∀ x, ts'.head? = some x → x.type ≠ 58 ∧ x.type ≠ 63

theorem loop_paren {E : PEnv} {te : Sub} (rest : List Token) : ∀ (items : List (List Token × PV)), items ≠ [] →
    (∀ x ∈ items, Parses (pAnyOf E te) FolAny x.1 x.2 ∧ ElemParen x.1) → ∀ (n : Nat) (acc : List Elem), items.length ≤ n →
    listLoop E te 41 n false 0 acc (joinToks (chTok 44) (items.map (·.1)) ++ (chTok 41 :: rest)) =
      .ok ((false, 0, acc ++ items.map fun x => .one x.2), rest)
  | [], hne, _, _, _, _ => absurd rfl hne
  | x :: items, _, h, n, acc, hn => by
    obtain ⟨hx, t, ts, htx, hd, h41, hhd⟩ := h x List.mem_cons_self
    cases n with
    | zero => simp at hn
    | succ n =>
      rw [htx] at hx
      cases items with
      | nil =>
        have h1 := elem_paren hx hhd (rest := chTok 41 :: rest) (Or.inr rfl)
        rw [listLoop.eq_def]
        simp only [List.map_cons, List.map_nil, joinToks, htx, List.cons_append, peekTok_cons, List.tail_cons]
        rw [if_neg hd, if_neg h41, h1]
        simp [peekTok_cons, chTok]
      | cons y items =>
        have he : (joinToks (chTok 44) ((x :: y :: items).map (·.1)) ++ (chTok 41 :: rest)) =
            t :: (ts ++ (chTok 44 :: (joinToks (chTok 44) ((y :: items).map (·.1)) ++ (chTok 41 :: rest)))) := by
          simp [joinToks, htx]
        have h1 := elem_paren hx hhd (rest := chTok 44 :: (joinToks (chTok 44) ((y :: items).map (·.1)) ++ (chTok 41 :: rest))) (Or.inl rfl)
        have ih := loop_paren rest (y :: items) (by simp) (fun x hx => h x (List.mem_cons_of_mem _ hx)) n
          (acc ++ [.one x.2]) (by simp at hn ⊢; omega)
        rw [listLoop.eq_def, he]
        simp only [peekTok_cons, List.tail_cons]
        rw [if_neg hd]
        simp only [h41, if_false, h1, peekTok_cons, List.tail_cons, Option.toList, show (chTok 44).type = 44 from rfl]
        rw [if_neg (by omega), if_neg (by omega), ih]
        simp

theorem loop_paren_variadic {E : PEnv} {te : Sub} (dots : Token) (hdots : dots.type = tDotdotdot)
    (rest : List Token) (last : List Token × PV) (hlast : Parses (pAnyOf E te) FolAny last.1 last.2)
    (hle : ∃ t ts, last.1 = t :: ts ∧ t.type ≠ 41) {et : Ty} (het : Types.newArrayType O last.2.asType 0 maxInt = some et) :
    ∀ (items : List (List Token × PV)),
    (∀ x ∈ items, Parses (pAnyOf E te) FolAny x.1 x.2 ∧ ElemParen x.1) → ∀ (n : Nat) (acc : List Elem), items.length + 1 ≤ n →
    listLoop E te 41 n false 0 acc (joinToks (chTok 44) (items.map (·.1) ++ [dots :: last.1]) ++ (chTok 41 :: rest)) =
      .ok ((true, 0, acc ++ (items.map fun x => .one x.2) ++ [.one (.ty et)]), rest)
  | [], _, n, acc, hn => by
    cases n with
    | zero => simp at hn
    | succ n =>
      obtain ⟨t, ts, hl, ht⟩ := hle
      have h1 := hlast (chTok 41 :: rest) (by rw [peekTok_cons]; simp [FolAny, FolOne, FolAll, Fol, chTok])
      rw [hl] at h1
      rw [listLoop.eq_def]
      simp only [List.map_nil, List.nil_append, joinToks, hl, List.cons_append, peekTok_cons, List.tail_cons] at h1 ⊢
      rw [if_pos hdots, if_neg (by intro h; exact ht h.1), if_neg (by decide), h1]
      dsimp only
      rw [het]
      simp [peekTok_cons, chTok]
  | x :: items, h, n, acc, hn => by
    obtain ⟨hx, t, ts, htx, hd, h41, hhd⟩ := h x List.mem_cons_self
    cases n with
    | zero => simp at hn
    | succ n =>
      rw [htx] at hx
      have hj : joinToks (chTok 44) ((x :: items).map (·.1) ++ [dots :: last.1]) =
          x.1 ++ [chTok 44] ++ joinToks (chTok 44) (items.map (·.1) ++ [dots :: last.1]) := by
        cases items <;> rfl
      have he : (joinToks (chTok 44) ((x :: items).map (·.1) ++ [dots :: last.1]) ++ (chTok 41 :: rest)) =
          t :: (ts ++ (chTok 44 :: (joinToks (chTok 44) (items.map (·.1) ++ [dots :: last.1]) ++ (chTok 41 :: rest)))) := by
        rw [hj]; simp [htx]
      have h1 := elem_paren hx hhd (rest := chTok 44 :: (joinToks (chTok 44) (items.map (·.1) ++ [dots :: last.1]) ++ (chTok 41 :: rest))) (Or.inl rfl)
      have ih := loop_paren_variadic dots hdots rest last hlast hle het items
        (fun x hx => h x (List.mem_cons_of_mem _ hx)) n (acc ++ [.one x.2]) (by simp at hn ⊢; omega)
      rw [listLoop.eq_def, he]
      simp only [peekTok_cons, List.tail_cons]
      rw [if_neg hd]
      simp only [h41, if_false, h1, peekTok_cons, List.tail_cons, Option.toList, show (chTok 44).type = 44 from rfl]
      rw [if_neg (by omega), if_neg (by omega), ih]
      simp

theorem start_paren {n : Nat} (h : Start n) : n ≠ 41 ∧ isExpressionEnd n = false ∧ n ≠ 61 := by
  unfold Start at h
  simp only [List.mem_cons, List.not_mem_nil, or_false] at h
  rcases h with rfl | rfl | rfl | rfl | rfl | rfl | rfl | rfl | rfl | rfl | rfl | rfl <;> decide

theorem elemParen_of {E : PEnv} {n : Nat} {ts : List Token} {v : PV} (h : AtAny E n ts v) (hd : (peekTok ts).type ≠ tDotdotdot) : ElemParen ts := by
  obtain ⟨a, as, ha, hs, hh⟩ := h.head
  refine ⟨a, as, ha, ?_, (start_paren hs).1, hh⟩
  rw [ha] at hd; exact hd

theorem list_paren {E : PEnv} {n : Nat} {items : List (List Token × PV)} (hne : items ≠ [])
    (h : ∀ x ∈ items, AtAny E n x.1 x.2 ∧ (peekTok x.1).type ≠ tDotdotdot) {t : Ty}
    (hm : Types.newTupleType O (items.map fun x => x.2.asType) false = some t) (rest : List Token) :
    pList E (typeExpression E n) 41 (joinToks (chTok 44) (items.map (·.1)) ++ chTok 41 :: rest) = .ok (.ty t, rest) := by
  unfold pList
  rw [if_neg (by decide), loop_paren rest items hne (fun x hx => ⟨(h x hx).1.parses, elemParen_of (h x hx).1 (h x hx).2⟩) _ _ ?_]
  · dsimp only
    rw [if_pos (by simpa using hne), if_neg (by decide)]
    unfold makeTuple
    have : (items.map fun x => Elem.one x.2) = (items.map (·.2)).map .one := by simp
    rw [List.nil_append, this, elemTypes_ones]
    simp only [Bool.false_eq_true, if_false, List.map_map]
    have e3 : (PV.asType ∘ fun x : List Token × PV => x.2) = fun x => x.2.asType := rfl
    rw [e3, hm]
    rfl
  · have := joinToks_length (chTok 44) (items.map (·.1))
    simp only [List.length_map, List.length_append, List.length_cons] at this ⊢
    omega

theorem list_paren_variadic {E : PEnv} {S : SEnv} {n : Nat} {items : List (List Token × PV)} {last : List Token × PV}
    (h : ∀ x ∈ items, AtAny E n x.1 x.2 ∧ (peekTok x.1).type ≠ tDotdotdot) (hl : AtAny E n last.1 last.2) {t : Ty}
    (hm : Types.newTupleType O (items.map (fun x => x.2.asType) ++ [last.2.asType]) true = some t) (rest : List Token) :
    pList E (typeExpression E n) 41 (joinToks (chTok 44) (items.map (·.1) ++ [Piece.tok S .dots3 :: last.1]) ++ chTok 41 :: rest) = .ok (.ty t, rest) := by
  unfold pList
  obtain ⟨et, het, hle⟩ := newArrayType_last last.2.asType
  obtain ⟨a, as, ha, hs, hh⟩ := hl.head
  rw [if_neg (by decide), loop_paren_variadic (Piece.tok S .dots3) rfl rest last hl.parses ⟨a, as, ha, (start_paren hs).1⟩ het items
    (fun x hx => ⟨(h x hx).1.parses, elemParen_of (h x hx).1 (h x hx).2⟩) _ _ ?_]
  · dsimp only
    rw [if_pos (by simp), if_neg (by decide)]
    unfold makeTuple
    have : (items.map fun x => Elem.one x.2) ++ [Elem.one (.ty et)] = (items.map (fun x => x.2) ++ [PV.ty et]).map Elem.one := by simp
    rw [List.nil_append, this, elemTypes_ones]
    simp only [if_true, List.map_append, List.map_cons, List.map_nil, List.map_map]
    have e4 : (PV.ty et).asType = et := rfl
    rw [e4, lastElement_append hle]
    have e3 : (PV.asType ∘ fun x : List Token × PV => x.2) = fun x => x.2.asType := rfl
    rw [e3]
    dsimp only
    unfold Types.variadicTupleType
    rw [if_neg (by simp), hm]
    rfl
  · have := joinToks_length (chTok 44) (items.map (·.1) ++ [Piece.tok S .dots3 :: last.1])
    simp only [List.length_map, List.length_append, List.length_cons, List.length_nil] at this ⊢
    omega

/-! ## The lists of a function type -/

/-- The types in parentheses: none, or those of a tuple that is read back -/
def ArgsOk (S : SEnv) (E : PEnv) (t : Ty) : Prop := (∃ o, t = .tuple o [] false) ∨ (isTupleTy t = true ∧ RtTy S E t)

/-- The tokens between the parentheses -/
def argToks (S : SEnv) (st : Val → List Piece) : Ty → List Token
  | .tuple _ ts variadic => toks S (tuplePieces S st variadic ts)
  | .exactD _ (.arr vs) => toks S (valsPieces S st (.ch 44) vs)
  | _ => []

theorem toks_args {S : SEnv} {st : Val → List Piece} {t : Ty} (h : isTupleTy t = true) :
    toks S (argsPieces S st t) = chTok 40 :: (argToks S st t ++ [chTok 41]) := by
  unfold isTupleTy at h
  split at h
  · rw [argsPieces, argToks, toks_append, toks_append]; rfl
  · rw [argsPieces, argToks, toks_append, toks_append]; rfl
  · cases h

theorem ArgsOk.tuple {S : SEnv} {E : PEnv} {t : Ty} (h : ArgsOk S E t) : isTupleTy t = true := by
  rcases h with ⟨o, rfl⟩ | h
  · rfl
  · exact h.1

theorem strip_tuple {t : Ty} (h : isTupleTy t = true) : isTupleTy (strip t) = true := by
  unfold isTupleTy at h
  split at h
  · rfl
  · rfl
  · cases h

theorem args_rt {S : SEnv} {E : PEnv} (st : Val → List Piece) {t : Ty} (h : ArgsOk S E t) {n : Nat} (hn : (argToks S st t).length ≤ n)
    (rest : List Token) : pList E (typeExpression E n) 41 (argToks S st t ++ chTok 41 :: rest) = .ok (.ty (strip t), rest) := by
  rcases h with ⟨o, rfl⟩ | ⟨hi, hr⟩
  · have e : argToks S st (.tuple o [] false) = [] := by rw [argToks, tuplePieces]; rfl
    unfold pList
    rw [e, if_neg (by decide), listLoop.eq_def]
    rfl
  · unfold isTupleTy at hi
    split at hi
    · rename_i o ts v
      rw [RtTy] at hr
      obtain ⟨hts, hne, hv⟩ := hr
      unfold argToks at hn ⊢
      dsimp only at hn ⊢
      have ih := tys_rt (S := S) (E := E) st ts hts
      have hst : strip (.tuple o ts v) = .tuple O (strips ts) v := by rw [strip]
      cases v with
      | false =>
        simp only [Bool.false_eq_true, if_false] at hv
        have ht : toks S (tuplePieces S st false ts) =
            joinToks (chTok 44) ((ts.map fun t => (toks S (tyPieces S st commaPrio t), pvOf t)).map (·.1)) := by
          rw [toks_tuple, List.map_map]; rfl
        rw [ht] at hn ⊢
        rw [hst]
        refine list_paren (by simpa using hne) ?_ ?_ rest
        · intro x hx
          obtain ⟨t, ht, rfl⟩ := List.mem_map.1 hx
          refine ⟨(ih t ht commaPrio n ?_).1, ty_first0 st (rtTys_mem hts t ht) (hv.1 t ht)⟩
          have := joinToks_le (chTok 44) (List.mem_map_of_mem (f := (·.1)) hx)
          dsimp only at this
          omega
        · rw [map_asType hts]; exact newTuple_strips (S := S) (E := E) hne hv.2
      | true =>
        simp only [if_true] at hv
        obtain ⟨us, l, rfl⟩ : ∃ us l, ts = us ++ [l] := ⟨_, _, (List.dropLast_concat_getLast hne).symm⟩
        rw [List.dropLast_concat] at hv
        have ht : toks S (tuplePieces S st true (us ++ [l])) =
            joinToks (chTok 44) ((us.map fun t => (toks S (tyPieces S st commaPrio t), pvOf t)).map (·.1) ++
              [Piece.tok S .dots3 :: toks S (tyPieces S st commaPrio l)]) := by
          rw [toks_variadic, List.map_map]; rfl
        rw [ht] at hn ⊢
        rw [hst]
        refine list_paren_variadic (S := S) (last := (toks S (tyPieces S st commaPrio l), pvOf l)) ?_ ((ih l (by simp) commaPrio n ?_).1) ?_ rest
        · intro x hx
          obtain ⟨t, ht, rfl⟩ := List.mem_map.1 hx
          refine ⟨(ih t (List.mem_append_left _ ht) commaPrio n ?_).1, ty_first0 st (rtTys_mem hts t (List.mem_append_left _ ht)) (hv t ht)⟩
          have := joinToks_le (chTok 44) (List.mem_append_left [Piece.tok S .dots3 :: toks S (tyPieces S st commaPrio l)] (List.mem_map_of_mem (f := (·.1)) hx))
          dsimp only at this
          omega
        · have := joinToks_le (chTok 44) (List.mem_append_right ((us.map fun t => (toks S (tyPieces S st commaPrio t), pvOf t)).map (·.1))
            (List.mem_singleton.2 (rfl : Piece.tok S .dots3 :: toks S (tyPieces S st commaPrio l) = _)))
          simp only [List.length_cons] at this
          omega
        · have e : (List.map (fun x : List Token × PV => x.2.asType) (us.map fun t => (toks S (tyPieces S st commaPrio t), pvOf t)) ++ [(pvOf l).asType]) =
              strips (us ++ [l]) := by
            rw [← map_asType hts fun t => toks S (tyPieces S st commaPrio t), List.map_append, List.map_append]; rfl
          show Types.newTupleType O (_ ++ [(pvOf l).asType]) true = _
          rw [e]; exact newTuple_variadic (by simp)
    · rename_i o vs
      rw [RtTy, RtVal] at hr
      unfold argToks at hn ⊢
      dsimp only at hn ⊢
      have ht : toks S (valsPieces S st (.ch 44) vs) = joinToks (chTok 44) ((vs.map fun v => (toks S (valPieces S st v), pvVal v)).map (·.1)) := by
        rw [toks_vals, List.map_map]; rfl
      rw [ht] at hn ⊢
      have hst : strip (.exactD o (.arr vs)) = .exactD O (.arr vs) := by rw [strip]
      rw [hst]
      refine list_paren (by simpa using hr.2.1) ?_ ?_ rest
      · intro x hx
        obtain ⟨v, hv, rfl⟩ := List.mem_map.1 hx
        refine ⟨(vals_rt st vs hr.2.2 v hv n ?_).un.any, ?_⟩
        · have := joinToks_le (chTok 44) (List.mem_map_of_mem (f := (·.1)) hx)
          dsimp only at this
          omega
        · obtain ⟨t, ts, h1, h2, h3, _⟩ := val_head st (rtVals_mem hr.2.2 v hv)
          show (peekTok (toks S (valPieces S st v))).type ≠ _
          rw [h1]; exact h3
      · rw [List.map_map]; exact newTuple_vals hr.2.1 (rtVals_mem hr.2.2)
    · cases hi

theorem args_emb {S : SEnv} {E : PEnv} (st : Val → List Piece) {t : Ty} (h : ArgsOk S E t) : Emb S (argsPieces S st t) := by
  have hwrap : ∀ ps, Emb S ps → Emb S ([.ch 40] ++ ps ++ [.ch 41]) := fun ps h =>
    Emb.append (.ch punct h) (.ch punct .nil) (Or.inr ⟨_, _, rfl⟩)
  rcases h with ⟨o, rfl⟩ | ⟨hi, hr⟩
  · rw [argsPieces]; exact hwrap _ (by rw [tuplePieces]; exact .nil)
  · unfold isTupleTy at hi
    split at hi
    · rw [RtTy] at hr; rw [argsPieces]; exact hwrap _ (tuple_emb st _ _ hr.1)
    · rw [RtTy, RtVal] at hr; rw [argsPieces]; exact hwrap _ (vals_emb st _ hr.2.2)
    · cases hi

theorem args_last {S : SEnv} {st : Val → List Piece} {t : Ty} (h : isTupleTy t = true) (ps : List Piece) (p : Piece)
    (hp : (ps ++ argsPieces S st t).getLast? = some p) : ∃ c, p = .ch c := by
  unfold isTupleTy at h
  split at h
  · rw [argsPieces, ← List.append_assoc, List.getLast?_append] at hp
    simp at hp; exact ⟨_, hp.symm⟩
  · rw [argsPieces, ← List.append_assoc, List.getLast?_append] at hp
    simp at hp; exact ⟨_, hp.symm⟩
  · cases h

end Verif.Text
