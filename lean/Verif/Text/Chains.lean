import Verif.Text.Relex
/-!
# The pieces of a printed type may follow each other
-/
set_option autoImplicit false
set_option linter.unusedVariables false
set_option linter.unusedSimpArgs false
namespace Verif.Text
open Verif.Value (Str Val F64)
open Verif.Types (Ty Oid maxInt)

/-- Nothing, or a punctuation first -/
def Opens (ps : List Piece) : Prop := ps = [] ∨ ∃ c t, ps = .ch c :: t

/-- Pieces that may stand before the end and before a punctuation -/
def Emb (S : SEnv) (ps : List Piece) : Prop := ∀ tail, Opens tail → Chain S tail → Chain S (ps ++ tail)

theorem Emb.nil {S : SEnv} : Emb S [] := fun _ _ h => h

theorem chain_ch {S : SEnv} {c : UInt8} (hc : Punct c) {ps : List Piece} (h : Chain S ps) : Chain S (.ch c :: ps) := by
  cases ps with
  | nil => exact hc
  | cons q ps => exact ⟨hc, True.intro, h⟩

theorem Emb.ch {S : SEnv} {c : UInt8} (hc : Punct c) {ps : List Piece} (h : Emb S ps) : Emb S (.ch c :: ps) :=
  fun tail ho ht => chain_ch hc (h tail ho ht)

theorem Emb.append {S : SEnv} {a b : List Piece} (ha : Emb S a) (hb : Emb S b) (ho : Opens b) : Emb S (a ++ b) := by
  intro tail hot ht
  rw [List.append_assoc]
  refine ha _ ?_ (hb tail hot ht)
  rcases ho with rfl | ⟨c, t, rfl⟩
  · exact hot
  · exact Or.inr ⟨c, t ++ tail, rfl⟩

theorem Emb.one {S : SEnv} {p : Piece} (h : PieceOk S p) (hadj : ∀ c, Adj S p (.ch c)) : Emb S [p] := by
  intro tail ho ht
  rcases ho with rfl | ⟨c, t, rfl⟩
  · exact h
  · exact ⟨h, hadj c, ht⟩

theorem Emb.word {S : SEnv} {s : Str} (h : Word s) : Emb S [.word s] := .one h fun _ => True.intro
theorem Emb.int {S : SEnv} (v : Int) : Emb S [.int v] := .one True.intro fun _ => True.intro
theorem Emb.float {S : SEnv} {f : F64} (h : PlainFloat (S.ftoa f) ∨ ExpFloat (S.ftoa f)) : Emb S [.float f] := .one h fun _ => True.intro
theorem Emb.str {S : SEnv} {s : Str} (h : StrOk S s) : Emb S [.str s] := .one h fun _ => True.intro
theorem Emb.rx {S : SEnv} {s : Str} (h : RxOk s) : Emb S [.rx s] := .one h fun _ => True.intro

theorem Emb.dots3 {S : SEnv} {ps : List Piece} (h : Emb S ps) : Emb S (.dots3 :: ps) := by
  intro tail ho ht
  have := h tail ho ht
  rw [List.cons_append]
  cases hps : ps ++ tail with
  | nil => exact True.intro
  | cons q u => rw [hps] at this; exact ⟨True.intro, True.intro, this⟩

/-- A number, dots, a number -/
theorem emb_range {S : SEnv} {a b : Option Piece} {inclusive : Bool}
    (ha : ∀ p, a = some p → PieceOk S p ∧ Adj S p .dots2 ∧ Adj S p .dots3)
    (hb : ∀ p, b = some p → Emb S [p] ∧ Adj S .dots2 p) :
    Emb S (a.toList ++ [if inclusive then .dots2 else .dots3] ++ b.toList) := by
  have hd : Emb S ([if inclusive then .dots2 else .dots3] ++ b.toList) := by
    cases b with
    | none =>
      cases inclusive
      · exact Emb.dots3 .nil
      · exact .one True.intro fun _ => True.intro
    | some p =>
      obtain ⟨h1, h2⟩ := hb p rfl
      cases inclusive
      · exact Emb.dots3 h1
      · intro tail ho ht
        exact ⟨True.intro, h2, h1 tail ho ht⟩
  rw [List.append_assoc]
  cases a with
  | none => exact hd
  | some p =>
    obtain ⟨h1, h2, h3⟩ := ha p rfl
    intro tail ho ht
    have := hd tail ho ht
    cases inclusive
    · exact ⟨h1, h3, this⟩
    · exact ⟨h1, h2, this⟩

theorem ite_toList {c : Prop} [Decidable c] (p : Piece) : (if c then [p] else []) = (if c then some p else none).toList := by
  split <;> rfl

theorem punct {c : UInt8} (h : decide (c ∈ ([33, 38, 40, 41, 44, 58, 63, 91, 93, 94, 123, 124, 125, 126] : Str)) = true := by rfl) : Punct c := by
  unfold Punct; exact of_decide_eq_true h

theorem Emb.brace {S : SEnv} {ps : List Piece} (h : Emb S ps) : Emb S ([.ch 123] ++ ps ++ [.ch 125]) :=
  Emb.append (.ch punct h) (.ch punct .nil) (Or.inr ⟨_, _, rfl⟩)

theorem Emb.sep {S : SEnv} {c : UInt8} (hc : Punct c) {a b : List Piece} (ha : Emb S a) (hb : Emb S b) : Emb S (a ++ [.ch c] ++ b) := by
  rw [List.append_assoc]
  exact Emb.append ha (.ch hc hb) (Or.inr ⟨_, _, rfl⟩)

theorem word_ok {cs : List Char} (h : ((w cs).all fun b => decide (b.toNat < 0x80) && isIdStart b.toNat) = true := by rfl)
    (hne : (w cs).isEmpty = false := by rfl) : Word (w cs) := by
  cases hw : w cs with
  | nil => rw [hw] at hne; cases hne
  | cons b t =>
    rw [hw] at h
    simp only [List.all_cons, Bool.and_eq_true, decide_eq_true_eq, List.all_eq_true] at h
    refine ⟨b, t, rfl, h.1, fun x hx => ⟨(h.2 x hx).1, ?_⟩⟩
    unfold isId
    rw [(h.2 x hx).2]; rfl

mutual
theorem val_emb {S : SEnv} {E : PEnv} (st : Val → List Piece) : (v : Val) → RtVal S E v → Emb S (valPieces S st v)
  | .bool b, _ => by rw [valPieces]; cases b <;> exact .word word_ok
  | .int i, _ => by rw [valPieces]; exact .int _
  | .float f, h => by rw [valPieces]; rw [RtVal] at h; exact .float h.1
  | .str s, h => by rw [valPieces]; rw [RtVal] at h; exact .str h
  | .arr vs, h => by rw [valPieces]; rw [RtVal] at h; exact .brace (vals_emb st vs h.2)
  | .map es, h => by rw [valPieces]; rw [RtVal] at h; exact .brace (entries_emb st es h.1)
  | .nil, h => by rw [RtVal] at h; · exact h.elim
                  all_goals simp
  | .bin _, h => by rw [RtVal] at h; · exact h.elim
                    all_goals simp
  | .time _, h => by rw [RtVal] at h; · exact h.elim
                     all_goals simp
  | .regexp _, h => by rw [RtVal] at h; · exact h.elim
                       all_goals simp
  | .sens _, h => by rw [RtVal] at h; · exact h.elim
                     all_goals simp
  | .entry _ _, h => by rw [RtVal] at h; · exact h.elim
                        all_goals simp

theorem vals_emb {S : SEnv} {E : PEnv} (st : Val → List Piece) : (vs : List Val) → RtVals S E vs → Emb S (valsPieces S st (.ch 44) vs)
  | [], _ => .nil
  | [v], h => by rw [valsPieces]; rw [RtVals] at h; exact val_emb st v h.1
  | v :: w :: vs, h => by
    rw [valsPieces]
    · rw [RtVals] at h
      exact .sep punct (val_emb st v h.1) (vals_emb st (w :: vs) h.2)
    · simp

theorem entries_emb {S : SEnv} {E : PEnv} (st : Val → List Piece) : (es : List (Val × Val)) → RtEntries S E es → Emb S (entriesPieces S st es)
  | [], _ => .nil
  | [(k, v)], h => by
    rw [entriesPieces]; rw [RtEntries] at h
    exact .sep punct (val_emb st k h.1) (val_emb st v h.2.2.1)
  | (k, v) :: e :: es, h => by
    rw [entriesPieces]
    · rw [RtEntries] at h
      exact .sep punct (.sep punct (val_emb st k h.1) (val_emb st v h.2.2.1)) (entries_emb st (e :: es) h.2.2.2)
    · simp
end

theorem ternary_emb {S : SEnv} {prio : Nat} {ops : List Piece} (h : Emb S ops) : Emb S (ternary prio ops) := by
  unfold ternary
  split
  · exact Emb.append (.ch punct h) (.ch punct .nil) (Or.inr ⟨_, _, rfl⟩)
  · simpa using h

theorem sizes_emb {S : SEnv} (min max : Int) : Emb S (sizeBoundaries min max) := by
  unfold sizeBoundaries
  split
  · exact Emb.append (.int _) (.ch punct (.int _)) (Or.inr ⟨_, _, rfl⟩)
  · exact Emb.append (.int _) .nil (Or.inl rfl)

theorem bracket_emb {S : SEnv} {ps : List Piece} (h : Emb S ps) : Emb S ([.ch 91] ++ ps ++ [.ch 93]) :=
  Emb.append (.ch punct h) (.ch punct .nil) (Or.inr ⟨_, _, rfl⟩)

mutual
theorem ty_emb {S : SEnv} {E : PEnv} (st : Val → List Piece) : (t : Ty) → RtTy S E t → ∀ prio, Emb S (tyPieces S st prio t)
  | .any, _, _ => by rw [tyPieces]; exact .word word_ok
  | .nilT, _, _ => by rw [tyPieces]; exact .word word_ok
  | .boolT, _, _ => by rw [tyPieces]; exact .word word_ok
  | .intT, _, _ => by rw [tyPieces]; exact .word word_ok
  | .floatT, _, _ => by rw [tyPieces]; exact .word word_ok
  | .strT, _, _ => by rw [tyPieces]; exact .word word_ok
  | .bin min max, h, _ => by
    rw [RtTy] at h; rw [tyPieces, if_pos h]; exact .word word_ok
  | .arrT, _, _ => by rw [tyPieces]; exact .ch punct (.ch punct (.word word_ok))
  | .mapT, _, _ => by
    rw [tyPieces]
    exact Emb.append (.word word_ok) (.ch punct (Emb.append (.word word_ok) (.ch punct (.word word_ok)) (Or.inr ⟨_, _, rfl⟩))) (Or.inr ⟨_, _, rfl⟩)
  | .exact v, h, _ => by rw [tyPieces]; rw [RtTy] at h; exact val_emb st v h.2
  | .exactD _ v, h, _ => by rw [tyPieces]; rw [RtTy] at h; exact val_emb st v h.2
  | .intRange min max inclusive, h, _ => by
    rw [tyPieces]
    have := emb_range (S := S) (inclusive := inclusive) (a := if min ≠ Types.minI64 then some (.int min.toInt) else none)
      (b := if max ≠ Types.maxI64 then some (.int max.toInt) else none)
      (by intro p hp; split at hp <;> cases hp; exact ⟨True.intro, True.intro, True.intro⟩)
      (by intro p hp; split at hp <;> cases hp; exact ⟨.int _, True.intro⟩)
    unfold intRangePieces
    rw [ite_toList, ite_toList]; exact this
  | .floatRange min max inclusive, h, _ => by
    rw [tyPieces]
    rw [RtTy] at h
    obtain ⟨_, h1, h2, h3⟩ := h
    have := emb_range (S := S) (inclusive := inclusive) (a := if !Value.F64.eq min Types.F64.min then some (.float min) else none)
      (b := if !Value.F64.eq max Types.F64.max then some (.float max) else none)
      (by
        intro p hp
        split at hp <;> cases hp
        rename_i hne
        rcases h1 with rfl | h1
        · exact absurd hne (by decide)
        · exact ⟨Or.inl h1.2.1, h1.2.1, h1.2.1⟩)
      (by intro p hp; split at hp <;> cases hp; exact ⟨.float h3.1, True.intro⟩)
    unfold floatRangePieces
    rw [ite_toList, ite_toList]; exact this
  | .sizedStr min max, h, _ => by
    rw [tyPieces]; split
    · exact Emb.append (.word word_ok) .nil (Or.inl rfl)
    · exact Emb.append (.word word_ok) (bracket_emb (sizes_emb _ _)) (Or.inr ⟨_, _, rfl⟩)
  | .ciStr s, h, _ => by rw [tyPieces]; rw [RtTy] at h; exact .ch punct (.str h.2)
  | .pattern rx, h, _ => by rw [tyPieces]; rw [RtTy] at h; exact .rx h.1
  | .sizedArr _ e min max, h, _ => by
    rw [tyPieces]; rw [RtTy] at h
    have ih := ty_emb st e h.1 typePrio
    split
    · exact .ch punct (.ch punct ih)
    · have := Emb.sep (c := 93) punct (Emb.ch (c := 91) punct (sizes_emb min max)) ih
      exact this
  | .tuple _ ts variadic, h, _ => by rw [tyPieces]; rw [RtTy] at h; exact .brace (tuple_emb st variadic ts h.1)
  | .sizedMap _ k v min max, h, _ => by
    rw [tyPieces]; rw [RtTy] at h
    have hk := ty_emb st k h.1 commaPrio
    have hv := ty_emb st v h.2.1 typePrio
    refine Emb.sep punct ?_ hv
    refine Emb.append ?_ ?_ ?_
    · exact Emb.append (a := [.word wMap]) (.word word_ok) (.ch punct hk) (Or.inr ⟨_, _, rfl⟩)
    · split
      · exact .nil
      · exact .ch punct (sizes_emb _ _)
    · split
      · exact Or.inl rfl
      · exact Or.inr ⟨_, _, rfl⟩
  | .struct _ additional fs, h, _ => by
    rw [tyPieces]; rw [RtTy] at h
    have hf := fields_emb st fs h.1
    have : ∀ a b : List Piece, [.ch 123] ++ a ++ b ++ [.ch 125] = [.ch 123] ++ (a ++ b) ++ [.ch 125] := fun a b => by simp
    rw [this]
    refine .brace ?_
    cases additional with
    | false => simpa using hf
    | true =>
      cases fs with
      | nil => exact .dots3 .nil
      | cons f fs => exact Emb.append hf (.ch punct (.dots3 .nil)) (Or.inr ⟨_, _, rfl⟩)
  | .allOf _ ts, h, prio => by rw [tyPieces]; rw [RtTy] at h; exact ternary_emb (join_emb st punct _ ts h.1)
  | .anyOf _ ts, h, prio => by rw [tyPieces]; rw [RtTy] at h; exact ternary_emb (join_emb st punct _ ts h.1)
  | .oneOf _ ts, h, prio => by rw [tyPieces]; rw [RtTy] at h; exact ternary_emb (join_emb st punct _ ts h.1)
  | .not t, h, _ => by rw [tyPieces]; rw [RtTy] at h; exact .ch punct (ty_emb st t h.1 _)
  | .sens _ t, h, prio => by
    rw [tyPieces]; rw [RtTy] at h
    split
    · exact Emb.append (.word word_ok) .nil (Or.inl rfl)
    · exact Emb.append (.word word_ok) (bracket_emb (ty_emb st t h.1 prio)) (Or.inr ⟨_, _, rfl⟩)
  | .metaT t, h, prio => by
    rw [tyPieces]; rw [RtTy] at h
    split
    · exact Emb.append (.word word_ok) .nil (Or.inl rfl)
    · exact Emb.append (.word word_ok) (bracket_emb (ty_emb st t h prio)) (Or.inr ⟨_, _, rfl⟩)
  | .allOfVal _ _, h, _ => by rw [RtTy] at h; · exact h.elim
                              all_goals simp
  | .regexpT, h, _ => by rw [RtTy] at h; · exact h.elim
                         all_goals simp
  | .timeT, h, _ => by rw [RtTy] at h; · exact h.elim
                       all_goals simp
  | .metaMeta, h, _ => by rw [RtTy] at h; · exact h.elim
                          all_goals simp

theorem join_emb {S : SEnv} {E : PEnv} (st : Val → List Piece) {c : UInt8} (hc : Punct c) (prio : Nat) : (ts : List Ty) → RtTys S E ts →
    Emb S (joinPieces S st (.ch c) prio ts)
  | [], _ => by rw [joinPieces]; exact .nil
  | [t], h => by rw [joinPieces]; rw [RtTys] at h; exact ty_emb st t h.1 prio
  | t :: u :: ts, h => by
    rw [joinPieces]
    · rw [RtTys] at h
      exact .sep hc (ty_emb st t h.1 prio) (join_emb st hc prio (u :: ts) h.2)
    · simp

theorem tuple_emb {S : SEnv} {E : PEnv} (st : Val → List Piece) (variadic : Bool) : (ts : List Ty) → RtTys S E ts →
    Emb S (tuplePieces S st variadic ts)
  | [], _ => by rw [tuplePieces]; exact .nil
  | [t], h => by
    rw [tuplePieces]; rw [RtTys] at h
    have := ty_emb st t h.1 commaPrio
    cases variadic
    · exact this
    · exact .dots3 this
  | t :: u :: ts, h => by
    rw [tuplePieces]
    · rw [RtTys] at h
      exact .sep punct (ty_emb st t h.1 commaPrio) (tuple_emb st variadic (u :: ts) h.2)
    · simp

theorem fields_emb {S : SEnv} {E : PEnv} (st : Val → List Piece) : (fs : List (Val × Bool × Ty)) → RtFields S E fs →
    Emb S (fieldPieces S st fs)
  | [], _ => by rw [fieldPieces]; exact .nil
  | [(k, rq, t)], h => by
    rw [fieldPieces]; rw [RtFields] at h
    have ht := ty_emb st t h.1.2.2 commaPrio
    have hk := val_emb st k h.1.1
    refine .sep punct ?_ ht
    cases rq
    · exact Emb.append hk (.ch punct .nil) (Or.inr ⟨_, _, rfl⟩)
    · exact Emb.append hk .nil (Or.inl rfl)
  | (k, rq, t) :: f :: fs, h => by
    rw [fieldPieces]
    · rw [RtFields] at h
      have ht := ty_emb st t h.1.2.2 commaPrio
      have hk := val_emb st k h.1.1
      have hfs := fields_emb st (f :: fs) h.2
      refine .sep punct (.sep punct ?_ ht) hfs
      cases rq
      · exact Emb.append hk (.ch punct .nil) (Or.inr ⟨_, _, rfl⟩)
      · exact Emb.append hk .nil (Or.inl rfl)
    · simp
end

theorem join_cons2 (S : SEnv) (st : Val → List Piece) (sep : Piece) (prio : Nat) (t u : Ty) (ts : List Ty) :
    joinPieces S st sep prio (t :: u :: ts) = tyPieces S st prio t ++ [sep] ++ joinPieces S st sep prio (u :: ts) := by
  rw [joinPieces]; simp
theorem tuple_cons2 (S : SEnv) (st : Val → List Piece) (v : Bool) (t u : Ty) (ts : List Ty) :
    tuplePieces S st v (t :: u :: ts) = tyPieces S st commaPrio t ++ [.ch 44] ++ tuplePieces S st v (u :: ts) := by
  rw [tuplePieces]; simp
theorem fields_cons2 (S : SEnv) (st : Val → List Piece) (k : Val) (rq : Bool) (t : Ty) (f : Val × Bool × Ty) (fs : List (Val × Bool × Ty)) :
    fieldPieces S st ((k, rq, t) :: f :: fs) =
      valPieces S st k ++ (if rq then [] else [.ch 63]) ++ [.ch 58] ++ tyPieces S st commaPrio t ++ [.ch 44] ++ fieldPieces S st (f :: fs) := by
  rw [fieldPieces]; simp

mutual
/-- The identities of types are not printed. -/
theorem pieces_strip (S : SEnv) (st : Val → List Piece) (prio : Nat) : (t : Ty) → tyPieces S st prio (strip t) = tyPieces S st prio t
  | .exactD .. => by simp only [strip, tyPieces]
  | .sizedArr _ e _ _ => by simp only [strip, tyPieces, pieces_strip S st _ e]
  | .tuple _ ts _ => by simp only [strip, tyPieces, tuple_strip S st _ ts]
  | .sizedMap _ k v _ _ => by simp only [strip, tyPieces, pieces_strip S st _ k, pieces_strip S st _ v]
  | .struct _ _ fs => by
    have : (stripFields fs).isEmpty = fs.isEmpty := by rw [stripFields_map]; cases fs <;> rfl
    simp only [strip, tyPieces, fields_strip S st fs, this]
  | .allOf _ ts => by simp only [strip, tyPieces, join_strip S st _ _ ts]
  | .allOfVal .. => by simp only [strip, tyPieces]
  | .anyOf _ ts => by simp only [strip, tyPieces, join_strip S st _ _ ts]
  | .oneOf _ ts => by simp only [strip, tyPieces, join_strip S st _ _ ts]
  | .not t => by simp only [strip, tyPieces, pieces_strip S st _ t]
  | .sens _ t => by simp only [strip, tyPieces, pieces_strip S st _ t, strip_isAny]
  | .metaT t => by simp only [strip, tyPieces, pieces_strip S st _ t, strip_isAny]
  | .any => rfl | .nilT => rfl | .boolT => rfl | .intT => rfl | .floatT => rfl | .strT => rfl | .regexpT => rfl | .timeT => rfl
  | .arrT => rfl | .mapT => rfl | .exact .. => rfl | .intRange .. => rfl | .floatRange .. => rfl | .sizedStr .. => rfl | .ciStr .. => rfl
  | .pattern .. => rfl | .bin .. => rfl | .metaMeta => rfl
theorem join_strip (S : SEnv) (st : Val → List Piece) (sep : Piece) (prio : Nat) : (ts : List Ty) →
    joinPieces S st sep prio (strips ts) = joinPieces S st sep prio ts
  | [] => rfl
  | [t] => by simp only [strips, joinPieces, pieces_strip S st _ t]
  | t :: u :: ts => by
    have := join_strip S st sep prio (u :: ts)
    rw [strips] at this
    rw [strips, strips, join_cons2, this, pieces_strip S st _ t, ← join_cons2]
theorem tuple_strip (S : SEnv) (st : Val → List Piece) (v : Bool) : (ts : List Ty) →
    tuplePieces S st v (strips ts) = tuplePieces S st v ts
  | [] => rfl
  | [t] => by simp only [strips, tuplePieces, pieces_strip S st _ t]
  | t :: u :: ts => by
    have := tuple_strip S st v (u :: ts)
    rw [strips] at this
    rw [strips, strips, tuple_cons2, this, pieces_strip S st _ t, ← tuple_cons2]
theorem fields_strip (S : SEnv) (st : Val → List Piece) : (fs : List (Val × Bool × Ty)) →
    fieldPieces S st (stripFields fs) = fieldPieces S st fs
  | [] => rfl
  | [(k, rq, t)] => by simp only [stripFields, fieldPieces, pieces_strip S st _ t]
  | (k, rq, t) :: (k', rq', t') :: fs => by
    have := fields_strip S st ((k', rq', t') :: fs)
    rw [stripFields] at this
    rw [stripFields, stripFields, fields_cons2, this, pieces_strip S st _ t, ← fields_cons2]
end

/-- **The round trip**: what is printed for a type that is read back parses to that type. -/
theorem parse_typeString {S : SEnv} {E : PEnv} (hp : ∀ c < 32, S.isPrint c = false) {t : Ty} (h : RtTy S E t) :
    parse E (typeString S t) = .ok (pvOf t) := by
  have hc := ty_emb (sensPieces S) t h commaPrio [] (Or.inl rfl) True.intro
  rw [List.append_nil] at hc
  have h1 := ((ty_rt (sensPieces S) t h) commaPrio (((toks S (tyPieces S (sensPieces S) commaPrio t)) ++ [(⟨[], tEnd⟩ : Token)]).length + 1)
    (by simp; omega)).1.parses [⟨[], tEnd⟩] (by simp [FolAny, FolOne, FolAll, Fol, peekTok, tEnd])
  unfold parse typeString
  rw [tokens_pieces hp hc]
  dsimp only
  unfold parseTokens
  rw [h1]
  rfl

end Verif.Text
