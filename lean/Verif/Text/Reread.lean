import Verif.Text.RoundTrip
/-!
# The tokens of a printed type parse to the type
-/
set_option autoImplicit false
set_option linter.unusedVariables false
set_option linter.unusedSimpArgs false
namespace Verif.Text
open Verif.Value (Str Val F64)
open Verif.Types (Ty Oid maxInt)

theorem toks_append (S : SEnv) (a b : List Piece) : toks S (a ++ b) = toks S a ++ toks S b := List.map_append
theorem toks_cons (S : SEnv) (p : Piece) (b : List Piece) : toks S (p :: b) = Piece.tok S p :: toks S b := rfl
theorem toks_nil (S : SEnv) : toks S [] = [] := rfl

theorem joinToks_le (sep : Token) {x : List Token} : ∀ {xs : List (List Token)}, x ∈ xs → x.length ≤ (joinToks sep xs).length
  | [], h => by cases h
  | [y], h => by rw [List.mem_singleton.1 h]; exact Nat.le.refl
  | y :: z :: xs, h => by
    rw [joinToks_cons]
    rcases List.mem_cons.1 h with rfl | h
    · simp
    · have := joinToks_le sep h
      simp; omega

/-! ## Values -/

theorem toks_vals (S : SEnv) (st : Val → List Piece) (c : UInt8) : ∀ vs : List Val,
    toks S (valsPieces S st (.ch c) vs) = joinToks (chTok c.toNat) (vs.map fun v => toks S (valPieces S st v))
  | [] => rfl
  | [v] => by rw [valsPieces]; rfl
  | v :: w :: vs => by
    rw [valsPieces, toks_append, toks_append, toks_vals S st c (w :: vs)]
    · rfl
    · simp

theorem toks_entries (S : SEnv) (st : Val → List Piece) : ∀ es : List (Val × Val),
    toks S (entriesPieces S st es) =
      joinToks (chTok 44) (es.map fun e => toks S (valPieces S st e.1) ++ chTok 58 :: toks S (valPieces S st e.2))
  | [] => rfl
  | [(k, v)] => by
    rw [entriesPieces, toks_append, toks_append]
    simp [toks_cons, toks_nil, joinToks, Piece.tok, chTok]
  | (k, v) :: f :: es => by
    rw [entriesPieces, toks_append, toks_append, toks_append, toks_append, toks_entries S st (f :: es)]
    · simp only [List.map_cons, joinToks_cons]
      simp [toks_cons, toks_nil, Piece.tok, chTok]
    · simp

/-- What the tokens of a value begin with -/
theorem val_head {S : SEnv} {E : PEnv} (st : Val → List Piece) {v : Val} (h : RtVal S E v) : ∃ t ts, toks S (valPieces S st v) = t :: ts ∧
    Start t.type ∧ t.type ≠ tDotdotdot ∧ (t.type = tIdentifier → ∃ b, v = .bool b) ∧ (ts = [] → scalar v = true) := by
  cases v with
  | bool b => exact ⟨_, [], by rw [valPieces]; rfl, by simp [Start, Piece.tok], by simp [Piece.tok, tIdentifier, tDotdotdot], fun _ => ⟨b, rfl⟩, fun _ => rfl⟩
  | int i => exact ⟨_, [], by rw [valPieces]; rfl, by simp [Start, Piece.tok], by simp [Piece.tok, tInteger, tDotdotdot], by simp [Piece.tok, tInteger, tIdentifier], fun _ => rfl⟩
  | float i => exact ⟨_, [], by rw [valPieces]; rfl, by simp [Start, Piece.tok], by simp [Piece.tok, tFloat, tDotdotdot], by simp [Piece.tok, tFloat, tIdentifier], fun _ => rfl⟩
  | str s => exact ⟨_, [], by rw [valPieces]; rfl, by simp [Start, Piece.tok], by simp [Piece.tok, tString, tDotdotdot], by simp [Piece.tok, tString, tIdentifier], fun _ => rfl⟩
  | arr vs =>
    exact ⟨chTok 123, _, by rw [valPieces]; rfl, by simp [Start, chTok], by simp [chTok, tDotdotdot], by simp [chTok, tIdentifier], by
      intro h; simp [toks_append, toks_cons, toks_nil] at h⟩
  | map es =>
    exact ⟨chTok 123, _, by rw [valPieces]; rfl, by simp [Start, chTok], by simp [chTok, tDotdotdot], by simp [chTok, tIdentifier], by
      intro h; simp [toks_append, toks_cons, toks_nil] at h⟩
  | nil => rw [RtVal] at h; · exact h.elim
           all_goals simp
  | bin b => rw [RtVal] at h; · exact h.elim
             all_goals simp
  | time b => rw [RtVal] at h; · exact h.elim
              all_goals simp
  | regexp b => rw [RtVal] at h; · exact h.elim
                all_goals simp
  | sens b => rw [RtVal] at h; · exact h.elim
              all_goals simp
  | entry a b => rw [RtVal] at h; · exact h.elim
                 all_goals simp

theorem val_exact {S : SEnv} {E : PEnv} {v : Val} (h : RtVal S E v) :
    (pvVal v).asType.isExact = true ∧ (pvVal v).asType.exactValue = some v ∧ (pvVal v).asType = Types.typeOf O v := by
  cases v with
  | bool b => exact ⟨rfl, rfl, rfl⟩
  | int i => exact ⟨rfl, rfl, rfl⟩
  | float i => exact ⟨rfl, rfl, rfl⟩
  | str s => exact ⟨rfl, rfl, rfl⟩
  | arr vs => exact ⟨rfl, rfl, rfl⟩
  | map es => exact ⟨rfl, rfl, rfl⟩
  | nil => rw [RtVal] at h; · exact h.elim
           all_goals simp
  | bin b => rw [RtVal] at h; · exact h.elim
             all_goals simp
  | time b => rw [RtVal] at h; · exact h.elim
              all_goals simp
  | regexp b => rw [RtVal] at h; · exact h.elim
                all_goals simp
  | sens b => rw [RtVal] at h; · exact h.elim
              all_goals simp
  | entry a b => rw [RtVal] at h; · exact h.elim
                 all_goals simp

theorem rtVals_mem {S : SEnv} {E : PEnv} : ∀ {vs : List Val}, RtVals S E vs → ∀ v ∈ vs, RtVal S E v
  | [], _, v, hv => by cases hv
  | w :: vs, h, v, hv => by
    rw [RtVals] at h
    rcases List.mem_cons.1 hv with rfl | hv
    · exact h.1
    · exact rtVals_mem h.2 v hv

theorem rtEntries_mem {S : SEnv} {E : PEnv} : ∀ {es : List (Val × Val)}, RtEntries S E es → ∀ e ∈ es,
    RtVal S E e.1 ∧ (∀ b, e.1 ≠ .bool b) ∧ RtVal S E e.2
  | [], _, v, hv => by cases hv
  | (k, w) :: es, h, v, hv => by
    rw [RtEntries] at h
    rcases List.mem_cons.1 hv with rfl | hv
    · exact ⟨h.1, h.2.1, h.2.2.1⟩
    · exact rtEntries_mem h.2.2.2 v hv

theorem newTuple_vals {S : SEnv} {E : PEnv} {vs : List Val} (hne : vs ≠ []) (h : ∀ v ∈ vs, RtVal S E v) :
    Types.newTupleType O (vs.map fun v => (pvVal v).asType) false = some (.exactD O (.arr vs)) := by
  unfold Types.newTupleType
  rw [if_neg (by simpa using hne), if_neg (by simp), if_pos]
  · have : ∀ {vs : List Val}, (∀ v ∈ vs, RtVal S E v) → Types.exactValues (vs.map fun v => (pvVal v).asType) = some vs := by
      intro vs
      induction vs with
      | nil => intro _; rfl
      | cons v vs ih =>
        intro h
        rw [List.map_cons, Types.exactValues, (val_exact (h v List.mem_cons_self)).2.1, ih fun v hv => h v (List.mem_cons_of_mem _ hv)]
    rw [this h]; rfl
  · simp only [Bool.not_false, Bool.true_and, List.all_map, List.all_eq_true, Function.comp_apply]
    exact fun v hv => (val_exact (h v hv)).1

theorem put_new {es : List (Val × Val)} {k v : Val} (h : ∀ e ∈ es, Value.eq k e.1 = false) :
    Types.structMapType.put es k v = es ++ [(k, v)] := by
  induction es with
  | nil => rfl
  | cons e es ih =>
    rw [Types.structMapType.put, h e List.mem_cons_self, ih fun e he => h e (List.mem_cons_of_mem _ he)]
    rfl

theorem putAll_new : ∀ {r es : List (Val × Val)}, (es ++ r).Pairwise (fun a b => Value.eq a.1 b.1 = false ∧ Value.eq b.1 a.1 = false) →
    Types.structMapType.putAll es r = es ++ r
  | [], es, _ => by rw [Types.structMapType.putAll, List.append_nil]
  | (k, v) :: r, es, h => by
    have h' := List.pairwise_append.1 h
    rw [Types.structMapType.putAll, put_new fun e he => (h'.2.2 e he (k, v) List.mem_cons_self).2, putAll_new]
    · simp
    · simpa using h

theorem structFields_of : ∀ (fs : List (Val × Bool × PV)) (pk : Val → PV), (∀ f ∈ fs, (pk f.1).asType.exactValue = some f.1) →
    structFields (fs.map fun f => .entry (pk f.1) (!f.2.1) f.2.2) = .ok (fs.map fun f => (f.1, f.2.1, f.2.2.asType))
  | [], _, _ => rfl
  | f :: fs, pk, h => by
    rw [List.map_cons, structFields, h f List.mem_cons_self, structFields_of fs pk fun f hf => h f (List.mem_cons_of_mem _ hf)]
    simp [Except.map]

theorem makeStruct_vals {S : SEnv} {E : PEnv} {es : List (Val × Val)} (h : ∀ e ∈ es, RtVal S E e.1 ∧ RtVal S E e.2)
    (hp : es.Pairwise fun a b => Value.eq a.1 b.1 = false ∧ Value.eq b.1 a.1 = false) :
    makeStruct (es.map fun e => .entry (pvVal e.1) false (pvVal e.2)) false = .ok (.exactD O (.map es)) := by
  unfold makeStruct
  have h1 := structFields_of (es.map fun e => (e.1, true, pvVal e.2)) pvVal (by
    intro f hf
    obtain ⟨e, he, rfl⟩ := List.mem_map.1 hf
    exact (val_exact (h e he).1).2.1)
  rw [List.map_map, List.map_map] at h1
  have e1 : ((fun f : Val × Bool × PV => Elem.entry (pvVal f.1) (!f.2.1) f.2.2) ∘ fun e : Val × Val => (e.1, true, pvVal e.2)) =
      fun e => .entry (pvVal e.1) false (pvVal e.2) := rfl
  rw [e1] at h1
  rw [h1]
  have e2 : ((fun f : Val × Bool × PV => (f.1, f.2.1, f.2.2.asType)) ∘ fun e : Val × Val => (e.1, true, pvVal e.2)) =
      fun e => (e.1, true, (pvVal e.2).asType) := rfl
  rw [e2]
  dsimp only
  unfold Types.structMapType
  rw [if_pos (by
    simp only [Bool.not_false, Bool.true_and, List.all_map, List.all_eq_true, Function.comp_apply]
    exact fun e he => (val_exact (h e he).2).1)]
  have hx : ∀ {es : List (Val × Val)}, (∀ e ∈ es, RtVal S E e.2) →
      Types.exactValues ((es.map fun e => (e.1, true, (pvVal e.2).asType)).map (·.2.2)) = some (es.map (·.2)) := by
    intro es
    induction es with
    | nil => intro _; rfl
    | cons e es ih =>
      intro h
      rw [List.map_cons, List.map_cons, Types.exactValues, (val_exact (h e List.mem_cons_self)).2.1,
        ih fun e he => h e (List.mem_cons_of_mem _ he)]
      rfl
  rw [hx fun e he => (h e he).2]
  dsimp only
  have hz : ((es.map fun e => (e.1, true, (pvVal e.2).asType)).map (·.1)).zip (es.map (·.2)) = es := by
    rw [List.map_map]
    clear h hp h1
    induction es with
    | nil => rfl
    | cons e es ih => rw [List.map_cons, List.map_cons, List.zip_cons_cons, ih]; rfl
  rw [hz, putAll_new (by simpa using hp)]
  rfl

/-- The key of an entry -/
theorem key_ok {S : SEnv} {E : PEnv} {st : Val → List Piece} {n : Nat} {k : Val} (h : RtVal S E k) {rq : Bool} (hk : keyOk rq k = true)
    (hp : AtTe E n (toks S (valPieces S st k)) (pvVal k)) (vt : List Token) (vv : PV) :
    KeyOk E (typeExpression E n) ⟨toks S (valPieces S st k), pvVal k, !rq, vt, vv⟩ := by
  by_cases hs : ∃ s, k = .str s
  · obtain ⟨s, rfl⟩ := hs
    refine Or.inl ⟨s, ?_, rfl⟩
    show toks S (valPieces S st (.str s)) = _
    rw [valPieces]; rfl
  · refine Or.inr ⟨hp.un.any.parses, ?_⟩
    obtain ⟨t, ts, h1, h2, h3, h4, h5⟩ := val_head st h
    obtain ⟨t', ts', h1', _, _, _, h6⟩ := hp.head
    rw [h1] at h1'
    cases h1'
    refine ⟨t, ts, h1, ?_, h3, (headStart h2).2.2.1, ?_, h6⟩
    · intro e
      obtain ⟨b, rfl⟩ := h4 e
      cases hk
    · intro e
      have := h5 e
      cases k <;> simp [scalar] at this <;> simp [keyOk] at hk
      · simp [hk]
      · simp [hk]
      · exact absurd ⟨_, rfl⟩ hs

mutual
theorem val_rt {S : SEnv} {E : PEnv} (st : Val → List Piece) : (v : Val) → RtVal S E v → ∀ n, (toks S (valPieces S st v)).length ≤ n →
    AtTe E n (toks S (valPieces S st v)) (pvVal v)
  | .bool b, _, n, hn => by
    rw [valPieces] at hn ⊢
    cases b
    · exact at_word hn fun _ _ _ => rfl
    · exact at_word hn fun _ _ _ => rfl
  | .int i, _, n, hn => by rw [valPieces] at hn ⊢; exact at_int hn i
  | .float f, h, n, hn => by
    rw [RtVal] at h
    rw [valPieces] at hn ⊢; exact at_float hn h.2
  | .str s, _, n, hn => by rw [valPieces] at hn ⊢; exact at_str hn s
  | .arr vs, h, n, hn => by
    rw [RtVal] at h
    have ht : toks S (valPieces S st (.arr vs)) = chTok 123 :: (joinToks (chTok 44) ((vs.map fun v => (toks S (valPieces S st v), pvVal v)).map (·.1)) ++ [chTok 125]) := by
      rw [valPieces, toks_append, toks_append, toks_vals, List.map_map]; rfl
    rw [ht] at hn ⊢
    obtain ⟨m, rfl⟩ : ∃ m, n = m + 1 := ⟨n - 1, by simp at hn; omega⟩
    refine at_tuple (by simpa using h.1) ?_ ?_
    · intro x hx
      obtain ⟨v, hv, rfl⟩ := List.mem_map.1 hx
      refine ⟨(vals_rt st vs h.2 v hv m ?_).un.any, ?_⟩
      · have := joinToks_le (chTok 44) (List.mem_map_of_mem (f := (·.1)) hx)
        simp only [List.length_cons, List.length_append, List.length_nil] at hn
        dsimp only at this
        omega
      · obtain ⟨t, ts, h1, h2, h3, _⟩ := val_head st (rtVals_mem h.2 v hv)
        show (peekTok (toks S (valPieces S st v))).type ≠ _
        rw [h1]; exact h3
    · rw [List.map_map]; exact newTuple_vals h.1 (rtVals_mem h.2)
  | .map es, h, n, hn => by
    rw [RtVal] at h
    have ht : toks S (valPieces S st (.map es)) = chTok 123 :: (joinToks (chTok 44)
        ((es.map fun e => (⟨toks S (valPieces S st e.1), pvVal e.1, false, toks S (valPieces S st e.2), pvVal e.2⟩ : FieldItem)).map (·.toks) ++
          if false then [[Piece.tok S .dots3]] else []) ++ [chTok 125]) := by
      rw [valPieces, toks_append, toks_append, toks_entries, List.map_map]
      simp only [Bool.false_eq_true, if_false, List.append_nil]
      have : (FieldItem.toks ∘ fun e : Val × Val => (⟨toks S (valPieces S st e.1), pvVal e.1, false, toks S (valPieces S st e.2), pvVal e.2⟩ : FieldItem)) =
          fun e => toks S (valPieces S st e.1) ++ chTok 58 :: toks S (valPieces S st e.2) := by
        funext e; simp [FieldItem.toks]
      rw [this]; rfl
    have hlen : 2 ≤ n := by
      rw [valPieces, toks_append, toks_append] at hn
      simp [toks_cons, toks_nil] at hn; omega
    obtain ⟨m, rfl⟩ : ∃ m, n = m + 1 := ⟨n - 1, by omega⟩
    have hle : ∀ e ∈ es, (toks S (valPieces S st e.1)).length ≤ m ∧ (toks S (valPieces S st e.2)).length ≤ m := by
      intro e he
      have hmem := List.mem_map_of_mem (f := fun e => toks S (valPieces S st e.1) ++ chTok 58 :: toks S (valPieces S st e.2)) he
      have := joinToks_le (chTok 44) hmem
      rw [valPieces, toks_append, toks_append, toks_entries] at hn
      simp only [List.length_cons, List.length_append, List.length_nil, toks_cons, toks_nil] at hn this
      omega
    rw [ht]
    refine at_struct (by omega) ?_ ?_ ?_
    · intro f hf
      obtain ⟨e, he, rfl⟩ := List.mem_map.1 hf
      obtain ⟨h1, h2, h3⟩ := rtEntries_mem h.1 e he
      have hh := entries_rt st es h.1 e he
      refine ⟨key_ok h1 (rq := true) ?_ (hh.1 m (hle e he).1) _ _, (hh.2 m (hle e he).2).un.any.parses⟩
      cases hk : e.1 <;> simp [keyOk]
      exact h2 _ hk
    · intro f hf
      obtain ⟨e, he, rfl⟩ := List.mem_map.1 hf
      obtain ⟨t, ts, h1, h2, _⟩ := val_head st (rtEntries_mem h.1 e he).1
      exact ⟨t, ts, h1, h2⟩
    · rw [List.map_map]
      exact makeStruct_vals (fun e he => ⟨(rtEntries_mem h.1 e he).1, (rtEntries_mem h.1 e he).2.2⟩) h.2
  | .nil, h, _, _ => by rw [RtVal] at h; · exact h.elim
                        all_goals simp
  | .bin _, h, _, _ => by rw [RtVal] at h; · exact h.elim
                          all_goals simp
  | .time _, h, _, _ => by rw [RtVal] at h; · exact h.elim
                           all_goals simp
  | .regexp _, h, _, _ => by rw [RtVal] at h; · exact h.elim
                             all_goals simp
  | .sens _, h, _, _ => by rw [RtVal] at h; · exact h.elim
                           all_goals simp
  | .entry _ _, h, _, _ => by rw [RtVal] at h; · exact h.elim
                              all_goals simp

theorem vals_rt {S : SEnv} {E : PEnv} (st : Val → List Piece) : (vs : List Val) → RtVals S E vs → ∀ v ∈ vs, ∀ n,
    (toks S (valPieces S st v)).length ≤ n → AtTe E n (toks S (valPieces S st v)) (pvVal v)
  | [], _, v, hv => by cases hv
  | w :: vs, h, v, hv => by
    rw [RtVals] at h
    rcases List.mem_cons.1 hv with hv | hv
    · have := val_rt st w h.1; rw [hv]; exact this
    · exact vals_rt st vs h.2 v hv

theorem entries_rt {S : SEnv} {E : PEnv} (st : Val → List Piece) : (es : List (Val × Val)) → RtEntries S E es → ∀ e ∈ es,
    (∀ n, (toks S (valPieces S st e.1)).length ≤ n → AtTe E n (toks S (valPieces S st e.1)) (pvVal e.1)) ∧
    (∀ n, (toks S (valPieces S st e.2)).length ≤ n → AtTe E n (toks S (valPieces S st e.2)) (pvVal e.2))
  | [], _, v, hv => by cases hv
  | (k, w) :: vs, h, v, hv => by
    rw [RtEntries] at h
    rcases List.mem_cons.1 hv with hv | hv
    · have h1 := val_rt st k h.1
      have h2 := val_rt st w h.2.2.1
      rw [hv]; exact ⟨h1, h2⟩
    · exact entries_rt st vs h.2.2.2 v hv
end

end Verif.Text
