import Verif.Text.Reread
/-!
# The tokens of a printed type parse to the type: types
-/
set_option autoImplicit false
set_option linter.unusedVariables false
set_option linter.unusedSimpArgs false
namespace Verif.Text
open Verif.Value (Str Val F64)
open Verif.Types (Ty Oid maxInt)

theorem strips_map : ∀ ts : List Ty, strips ts = ts.map strip
  | [] => rfl
  | t :: ts => by rw [strips, strips_map ts]; rfl

theorem stripFields_map : ∀ fs : List (Val × Bool × Ty), stripFields fs = fs.map fun f => (f.1, f.2.1, strip f.2.2)
  | [] => rfl
  | (k, rq, t) :: fs => by rw [stripFields, stripFields_map fs]; rfl

theorem strip_isAny (t : Ty) : (strip t).isAny = t.isAny := by
  cases t <;> first | rfl | (simp only [strip, Ty.isAny])

theorem strip_isExact (t : Ty) : (strip t).isExact = t.isExact := by
  cases t <;> first | rfl | (simp only [strip, Ty.isExact])

theorem pvOf_asType {S : SEnv} {E : PEnv} {t : Ty} (h : RtTy S E t) : (pvOf t).asType = strip t := by
  cases t with
  | exact v =>
    rw [RtTy] at h
    cases v <;> simp [scalar] at h <;> rfl
  | _ => rfl

theorem rtTys_mem {S : SEnv} {E : PEnv} : ∀ {ts : List Ty}, RtTys S E ts → ∀ t ∈ ts, RtTy S E t
  | [], _, v, hv => by cases hv
  | w :: vs, h, v, hv => by
    rw [RtTys] at h
    rcases List.mem_cons.1 hv with rfl | hv
    · exact h.1
    · exact rtTys_mem h.2 v hv

theorem rtFields_mem {S : SEnv} {E : PEnv} : ∀ {fs : List (Val × Bool × Ty)}, RtFields S E fs → ∀ f ∈ fs,
    RtVal S E f.1 ∧ keyOk f.2.1 f.1 = true ∧ RtTy S E f.2.2
  | [], _, v, hv => by cases hv
  | (k, rq, t) :: fs, h, v, hv => by
    rw [RtFields] at h
    rcases List.mem_cons.1 hv with rfl | hv
    · exact h.1
    · exact rtFields_mem h.2 v hv

theorem toks_join (S : SEnv) (st : Val → List Piece) (c : UInt8) (prio : Nat) : ∀ ts : List Ty,
    toks S (joinPieces S st (.ch c) prio ts) = joinToks (chTok c.toNat) (ts.map fun t => toks S (tyPieces S st prio t))
  | [] => by rw [joinPieces]; rfl
  | [t] => by rw [joinPieces]; rfl
  | t :: u :: ts => by
    rw [joinPieces, toks_append, toks_append, toks_join S st c prio (u :: ts)]
    · rfl
    · simp

theorem toks_tuple (S : SEnv) (st : Val → List Piece) : ∀ ts : List Ty,
    toks S (tuplePieces S st false ts) = joinToks (chTok 44) (ts.map fun t => toks S (tyPieces S st commaPrio t))
  | [] => by rw [tuplePieces]; rfl
  | [t] => by rw [tuplePieces]; rfl
  | t :: u :: ts => by
    rw [tuplePieces, toks_append, toks_append, toks_tuple S st (u :: ts)]
    · rfl
    · simp

theorem toks_variadic (S : SEnv) (st : Val → List Piece) (l : Ty) : ∀ ts : List Ty,
    toks S (tuplePieces S st true (ts ++ [l])) =
      joinToks (chTok 44) ((ts.map fun t => toks S (tyPieces S st commaPrio t)) ++ [Piece.tok S .dots3 :: toks S (tyPieces S st commaPrio l)])
  | [] => by rw [List.nil_append, tuplePieces]; rfl
  | [t] => by
    rw [List.cons_append, List.nil_append, tuplePieces, tuplePieces, toks_append, toks_append]
    · rfl
    · simp
  | t :: u :: ts => by
    rw [List.cons_append, List.cons_append, tuplePieces, toks_append, toks_append, ← List.cons_append, toks_variadic S st l (u :: ts)]
    · rfl
    · simp

theorem toks_fields (S : SEnv) (st : Val → List Piece) : ∀ fs : List (Val × Bool × Ty),
    toks S (fieldPieces S st fs) = joinToks (chTok 44) (fs.map fun f => toks S (valPieces S st f.1) ++ ((if f.2.1 then [] else [chTok 63]) ++
      chTok 58 :: toks S (tyPieces S st commaPrio f.2.2)))
  | [] => by rw [fieldPieces]; rfl
  | [(k, rq, t)] => by
    rw [fieldPieces]
    cases rq <;> simp [toks_append, toks_cons, toks_nil, joinToks, Piece.tok, chTok]
  | (k, rq, t) :: f :: fs => by
    rw [fieldPieces]
    · simp only [toks_append, toks_fields S st (f :: fs), List.map_cons, joinToks_cons]
      cases rq <;> simp [toks_append, toks_cons, toks_nil, joinToks, Piece.tok, chTok]
    · simp

/-! ## Operators -/

theorem join_headOk {sep : Token} (h1 : sep.type ≠ 58) (h2 : sep.type ≠ 63) {x : List Token} (h : HeadOk x) (xs : List (List Token)) :
    HeadOk (joinToks sep (x :: xs)) := by
  cases xs with
  | nil => exact h
  | cons y ys =>
    obtain ⟨t, ts, rfl, ht, hx⟩ := h
    refine ⟨t, ts ++ [sep] ++ joinToks sep (y :: ys), by rw [joinToks_cons]; rfl, ht, ?_⟩
    intro z hz
    cases ts with
    | nil => simp at hz; subst hz; exact ⟨h1, h2⟩
    | cons a as => simp at hz; subst hz; exact hx _ rfl

/-- What is known of a printed type -/
def TyOk (S : SEnv) (E : PEnv) (st : Val → List Piece) (t : Ty) : Prop :=
  ∀ prio n, (toks S (tyPieces S st prio t)).length ≤ n →
    AtAny E n (toks S (tyPieces S st prio t)) (pvOf t) ∧
    ((ternaryTy t = false ∨ 1 ≤ prio) → AtUn E n (toks S (tyPieces S st prio t)) (pvOf t)) ∧
    ((ternaryTy t = false ∨ 1 ≤ prio) → plain t = true → AtTe E n (toks S (tyPieces S st prio t)) (pvOf t))

theorem TyOk.of_te {S : SEnv} {E : PEnv} {st : Val → List Piece} {t : Ty}
    (h : ∀ prio n, (toks S (tyPieces S st prio t)).length ≤ n → AtTe E n (toks S (tyPieces S st prio t)) (pvOf t)) : TyOk S E st t :=
  fun prio n hn => ⟨(h prio n hn).un.any, fun _ => (h prio n hn).un, fun _ _ => h prio n hn⟩

theorem TyOk.of_un {S : SEnv} {E : PEnv} {st : Val → List Piece} {t : Ty} (hp : plain t = false)
    (h : ∀ prio n, (toks S (tyPieces S st prio t)).length ≤ n → AtUn E n (toks S (tyPieces S st prio t)) (pvOf t)) : TyOk S E st t :=
  fun prio n hn => ⟨(h prio n hn).any, fun _ => h prio n hn, fun _ h' => by rw [hp] at h'; cases h'⟩

/-- Operands, in parentheses if need be -/
theorem TyOk.of_ops {S : SEnv} {E : PEnv} {st : Val → List Piece} {t : Ty} {ops : List Piece} (ht : ternaryTy t = true)
    (hp : ∀ prio, tyPieces S st prio t = ternary prio ops)
    (h : ∀ n, (toks S ops).length ≤ n → AtAny E n (toks S ops) (pvOf t)) : TyOk S E st t := by
  intro prio n hn
  rw [hp] at hn ⊢
  by_cases h1 : 1 ≤ prio
  · have e : toks S (ternary prio ops) = chTok 40 :: (toks S ops ++ [chTok 41]) := by
      unfold ternary orPrio
      simp [h1, toks_append, toks_cons, toks_nil, Piece.tok, chTok]
    rw [e] at hn ⊢
    obtain ⟨m, rfl⟩ : ∃ m, n = m + 1 := ⟨n - 1, by simp at hn; omega⟩
    have := at_paren (h m (by simp at hn; omega))
    exact ⟨this.un.any, fun _ => this.un, fun _ _ => this⟩
  · have e : ternary prio ops = ops := by
      unfold ternary orPrio
      simp [h1]
    rw [e] at hn ⊢
    refine ⟨h n hn, ?_, ?_⟩
    · intro h; rw [ht] at h; simp at h; omega
    · intro h; rw [ht] at h; simp at h; omega

theorem map_asType {S : SEnv} {E : PEnv} {ts : List Ty} (h : RtTys S E ts) (f : Ty → List Token) :
    ((ts.map fun t => (f t, pvOf t)).map fun x => x.2.asType) = strips ts := by
  rw [strips_map, List.map_map]
  exact List.map_congr_left fun t ht => pvOf_asType (rtTys_mem h t ht)

section ops
variable {S : SEnv} {E : PEnv} {st : Val → List Piece} {ts : List Ty} {n prio : Nat}

theorem ops_un (hr : ∀ t ∈ ts, TyOk S E st t) (hp : 1 ≤ prio) {c : Token}
    (hn : (joinToks c (ts.map fun t => toks S (tyPieces S st prio t))).length ≤ n) :
    ∀ x ∈ ts.map fun t => (toks S (tyPieces S st prio t), pvOf t), AtUn E n x.1 x.2 := by
  intro x hx
  obtain ⟨t, ht, rfl⟩ := List.mem_map.1 hx
  refine (hr t ht prio n ?_).2.1 (Or.inr hp)
  have := joinToks_le c (List.mem_map_of_mem (f := fun t => toks S (tyPieces S st prio t)) ht)
  omega

theorem ops_head (hr : ∀ t ∈ ts, TyOk S E st t) (hp : 1 ≤ prio) {c : Token} (hl : 2 ≤ ts.length) (h1 : c.type ≠ 58) (h2 : c.type ≠ 63)
    (hn : (joinToks c (ts.map fun t => toks S (tyPieces S st prio t))).length ≤ n) :
    HeadOk (joinToks c (ts.map fun t => toks S (tyPieces S st prio t))) := by
  match ts, hl with
  | t :: ts, _ =>
    rw [List.map_cons]
    exact join_headOk h1 h2 (ops_un hr hp hn _ (List.mem_map_of_mem List.mem_cons_self)).head _

theorem two_le (hl : 2 ≤ ts.length) (f : Ty → List Token) : 2 ≤ (ts.map fun t => (f t, pvOf t)).length := by simpa using hl

theorem ok_allOf {o : Oid} (h : RtTys S E ts) (hl : 2 ≤ ts.length) (hr : ∀ t ∈ ts, TyOk S E st t) : TyOk S E st (.allOf o ts) := by
  refine TyOk.of_ops (ops := joinPieces S st (.ch 38) andPrio ts) rfl (fun prio => by rw [tyPieces]) ?_
  intro n hn
  rw [toks_join] at hn ⊢
  refine ⟨ops_head hr (by decide) hl (by decide) (by decide) hn, ?_⟩
  have := pOp_many (op := 38) (make := Types.allOfType O) (F := Fol) (by simp [Fol]) (two_le hl fun t => toks S (tyPieces S st andPrio t))
    (fun x hx => (ops_un hr (by decide) hn x hx).parses) (chTok 38) rfl
  rw [List.map_map, List.map_map] at this
  refine pAnyOf_of (pOneOf_of ?_)
  have e := map_asType h fun t => toks S (tyPieces S st andPrio t)
  rw [List.map_map] at e
  have e2 : Types.allOfType O (strips ts) = strip (.allOf o ts) := by
    rw [strip, strips_map]
    match ts, hl with
    | a :: b :: ts, _ => rfl
  have e3 : (PV.ty (Types.allOfType O (List.map (PV.asType ∘ (fun x : List Token × PV => x.2) ∘ fun t => (toks S (tyPieces S st andPrio t), pvOf t)) ts))) =
      pvOf (.allOf o ts) := by
    show PV.ty _ = PV.ty _
    rw [← e2, ← e]; rfl
  rw [List.map_map] at this
  rw [← e3]
  exact this

theorem ok_oneOf {o : Oid} (h : RtTys S E ts) (hl : 2 ≤ ts.length) (hr : ∀ t ∈ ts, TyOk S E st t) : TyOk S E st (.oneOf o ts) := by
  refine TyOk.of_ops (ops := joinPieces S st (.ch 94) xorPrio ts) rfl (fun prio => by rw [tyPieces]) ?_
  intro n hn
  rw [toks_join] at hn ⊢
  refine ⟨ops_head hr (by decide) hl (by decide) (by decide) hn, ?_⟩
  have := pOp_many (op := 94) (make := Types.oneOfType O) (F := FolAll) (by simp [FolAll, Fol]) (two_le hl fun t => toks S (tyPieces S st xorPrio t))
    (fun x hx => pAllOf_of (ops_un hr (by decide) hn x hx).parses) (chTok 94) rfl
  rw [List.map_map, List.map_map] at this
  refine pAnyOf_of ?_
  have e := map_asType h fun t => toks S (tyPieces S st xorPrio t)
  rw [List.map_map] at e
  have e2 : Types.oneOfType O (strips ts) = strip (.oneOf o ts) := by
    rw [strip, strips_map]
    match ts, hl with
    | a :: b :: ts, _ => rfl
  have e3 : (PV.ty (Types.oneOfType O (List.map (PV.asType ∘ (fun x : List Token × PV => x.2) ∘ fun t => (toks S (tyPieces S st xorPrio t), pvOf t)) ts))) =
      pvOf (.oneOf o ts) := by
    show PV.ty _ = PV.ty _
    rw [← e2, ← e]; rfl
  rw [List.map_map] at this
  rw [← e3]
  exact this

theorem ok_anyOf {o : Oid} (h : RtTys S E ts) (hl : 2 ≤ ts.length) (hr : ∀ t ∈ ts, TyOk S E st t) : TyOk S E st (.anyOf o ts) := by
  refine TyOk.of_ops (ops := joinPieces S st (.ch 124) orPrio ts) rfl (fun prio => by rw [tyPieces]) ?_
  intro n hn
  rw [toks_join] at hn ⊢
  refine ⟨ops_head hr (by decide) hl (by decide) (by decide) hn, ?_⟩
  have := pOp_many (op := 124) (make := Types.anyOfType O) (F := FolOne) (by simp [FolOne, FolAll, Fol]) (two_le hl fun t => toks S (tyPieces S st orPrio t))
    (fun x hx => pOneOf_of (pAllOf_of (ops_un hr (by decide) hn x hx).parses)) (chTok 124) rfl
  rw [List.map_map, List.map_map] at this
  have e := map_asType h fun t => toks S (tyPieces S st orPrio t)
  rw [List.map_map] at e
  have e2 : Types.anyOfType O (strips ts) = strip (.anyOf o ts) := by
    rw [strip, strips_map]
    match ts, hl with
    | a :: b :: ts, _ => rfl
  have e3 : (PV.ty (Types.anyOfType O (List.map (PV.asType ∘ (fun x : List Token × PV => x.2) ∘ fun t => (toks S (tyPieces S st orPrio t), pvOf t)) ts))) =
      pvOf (.anyOf o ts) := by
    show PV.ty _ = PV.ty _
    rw [← e2, ← e]; rfl
  rw [List.map_map] at this
  rw [← e3]
  exact this
end ops

/-! ## The first token -/

theorem val_first {S : SEnv} {E : PEnv} (st : Val → List Piece) {v : Val} (h : RtVal S E v) :
    (peekTok (toks S (valPieces S st v))).type ≠ tDotdotdot := by
  obtain ⟨t, ts, h1, h2, h3, _⟩ := val_head st h
  rw [h1]; exact h3

theorem ty_first {S : SEnv} {E : PEnv} (st : Val → List Piece) {t : Ty} (h : RtTy S E t) (ho : openRange t = false) {prio : Nat}
    (hp : ternaryTy t = false ∨ 1 ≤ prio) : (peekTok (toks S (tyPieces S st prio t))).type ≠ tDotdotdot := by
  have htern : ∀ ops, 1 ≤ prio → (peekTok (toks S (ternary prio ops))).type ≠ tDotdotdot := by
    intro ops h1
    unfold ternary orPrio
    simp only [h1, if_true]
    exact (by decide : (40 : Nat) ≠ tDotdotdot)
  cases t with
  | exact v => rw [tyPieces]; rw [RtTy] at h; exact val_first st h.2
  | exactD o v => rw [tyPieces]; rw [RtTy] at h; exact val_first st h.2
  | intRange min max inclusive =>
    rw [tyPieces]; unfold intRangePieces
    by_cases hm : min = Types.minI64
    · simp only [openRange, hm, beq_self_eq_true, Bool.true_and] at ho
      subst hm
      simp at ho; subst ho
      simp [toks_append, toks_cons, toks_nil, Piece.tok, peekTok, tDotdotdot, tDotdot]
    · simp [hm, toks_append, toks_cons, toks_nil, Piece.tok, peekTok, tDotdotdot, tInteger]
  | floatRange min max inclusive =>
    rw [tyPieces]; unfold floatRangePieces
    by_cases hm : Value.F64.eq min Types.F64.min = true
    · simp [openRange, hm] at ho
      subst ho
      simp [hm, toks_append, toks_cons, toks_nil, Piece.tok, peekTok, tDotdotdot, tDotdot]
    · simp [hm, toks_append, toks_cons, toks_nil, Piece.tok, peekTok, tDotdotdot, tFloat]
  | allOf o ts => rw [tyPieces]; exact htern _ (by simpa [ternaryTy] using hp)
  | anyOf o ts => rw [tyPieces]; exact htern _ (by simpa [ternaryTy] using hp)
  | oneOf o ts => rw [tyPieces]; exact htern _ (by simpa [ternaryTy] using hp)
  | allOfVal o vs => rw [RtTy] at h; · exact h.elim
                     all_goals simp
  | regexpT => rw [RtTy] at h; · exact h.elim
               all_goals simp
  | timeT => rw [RtTy] at h; · exact h.elim
             all_goals simp
  | metaMeta => rw [RtTy] at h; · exact h.elim
                all_goals simp
  | sizedArr o e min max =>
    rw [tyPieces]
    split <;> exact (by decide : (91 : Nat) ≠ tDotdotdot)
  | sizedStr => rw [tyPieces]; exact (by decide : tIdentifier ≠ tDotdotdot)
  | bin => rw [tyPieces]; exact (by decide : tIdentifier ≠ tDotdotdot)
  | sizedMap => rw [tyPieces]; exact (by decide : tIdentifier ≠ tDotdotdot)
  | sens => rw [tyPieces]; exact (by decide : tIdentifier ≠ tDotdotdot)
  | metaT => rw [tyPieces]; exact (by decide : tIdentifier ≠ tDotdotdot)
  | tuple => rw [tyPieces]; exact (by decide : (123 : Nat) ≠ tDotdotdot)
  | struct => rw [tyPieces]; exact (by decide : (123 : Nat) ≠ tDotdotdot)
  | not => rw [tyPieces]; exact (by decide : (33 : Nat) ≠ tDotdotdot)
  | ciStr => rw [tyPieces]; exact (by decide : (126 : Nat) ≠ tDotdotdot)
  | arrT => rw [tyPieces]; exact (by decide : (91 : Nat) ≠ tDotdotdot)
  | pattern => rw [tyPieces]; exact (by decide : tRegexp ≠ tDotdotdot)
  | _ => rw [tyPieces]; exact (by decide : tIdentifier ≠ tDotdotdot)

theorem ty_first0 {S : SEnv} {E : PEnv} (st : Val → List Piece) {t : Ty} (h : RtTy S E t) (ho : startsOpen t = false) :
    (peekTok (toks S (tyPieces S st commaPrio t))).type ≠ tDotdotdot := by
  have hops : ∀ (ts : List Ty) (c : UInt8) (prio : Nat), 1 ≤ prio → c.toNat ≠ tDotdotdot → RtTys S E ts → 2 ≤ ts.length →
      (∀ t u, ts = t :: u → openRange t = false) →
      (peekTok (toks S (ternary commaPrio (joinPieces S st (.ch c) prio ts)))).type ≠ tDotdotdot := by
    intro ts c prio hp hc hr hl hf
    have e : ternary commaPrio (joinPieces S st (.ch c) prio ts) = joinPieces S st (.ch c) prio ts := by
      unfold ternary commaPrio orPrio; simp
    rw [e, toks_join]
    match ts, hl with
    | a :: b :: ts, _ =>
      have h1 := ty_first st (prio := prio) (rtTys_mem hr a List.mem_cons_self) (hf a _ rfl) (Or.inr hp)
      rw [List.map_cons, List.map_cons, joinToks_cons]
      cases he : toks S (tyPieces S st prio a) with
      | nil => exact hc
      | cons x xs => rw [he] at h1; exact h1
  cases t with
  | allOf o ts =>
    rw [tyPieces]; rw [RtTy] at h
    refine hops ts _ _ (by decide) (by decide) h.1 h.2 ?_
    rintro t u rfl; exact ho
  | anyOf o ts =>
    rw [tyPieces]; rw [RtTy] at h
    refine hops ts _ _ (by decide) (by decide) h.1 h.2 ?_
    rintro t u rfl; exact ho
  | oneOf o ts =>
    rw [tyPieces]; rw [RtTy] at h
    refine hops ts _ _ (by decide) (by decide) h.1 h.2 ?_
    rintro t u rfl; exact ho
  | _ => exact ty_first st h ho (Or.inl rfl)

theorem joinToks_snoc (sep : Token) (x : List Token) : ∀ (xs : List (List Token)), xs ≠ [] →
    joinToks sep (xs ++ [x]) = joinToks sep xs ++ sep :: x
  | [], h => absurd rfl h
  | [y], _ => by simp [joinToks]
  | y :: z :: xs, _ => by
    rw [List.cons_append, List.cons_append, joinToks_cons, ← List.cons_append, joinToks_snoc sep x (z :: xs) (by simp), joinToks_cons]
    simp

theorem rtVal_cases {S : SEnv} {E : PEnv} {v : Val} (h : RtVal S E v) : scalar v = true ∨ (∃ vs, v = .arr vs) ∨ ∃ es, v = .map es := by
  have := (val_exact h).2.1
  cases v with
  | arr vs => exact Or.inr (Or.inl ⟨_, rfl⟩)
  | map vs => exact Or.inr (Or.inr ⟨_, rfl⟩)
  | bool _ => exact Or.inl rfl
  | int _ => exact Or.inl rfl
  | float _ => exact Or.inl rfl
  | str _ => exact Or.inl rfl
  | nil => rw [RtVal] at h; · exact h.elim
           all_goals simp
  | bin b => rw [RtVal] at h; · exact h.elim
             all_goals simp
  | time b => rw [RtVal] at h; · exact h.elim
              all_goals simp
  | regexp b => rw [RtVal] at h; · exact h.elim
                all_goals simp
  | sens b => rw [RtVal] at h; · exact h.elim
              all_goals simp
  | entry a b => rw [RtVal] at h; · exact h.elim
                 all_goals simp

theorem sizes_all : SizesOk 0 maxInt := by unfold SizesOk; decide

/-! ## Types -/

theorem newTuple_strips {S : SEnv} {E : PEnv} {ts : List Ty} (hne : ts ≠ []) (h : ¬ ts.all Ty.isExact = true) :
    Types.newTupleType O (strips ts) false = some (.tuple O (strips ts) false) := by
  unfold Types.newTupleType
  rw [strips_map, if_neg (by simpa using hne), if_neg (by simp), if_neg]
  simp only [Bool.not_false, Bool.true_and, List.all_map]
  intro hc
  refine h (List.all_eq_true.2 fun t ht => ?_)
  rw [← strip_isExact]
  exact List.all_eq_true.1 hc t ht

theorem newTuple_variadic {ts : List Ty} (hne : ts ≠ []) :
    Types.newTupleType O (strips ts) true = some (.tuple O (strips ts) true) := by
  unfold Types.newTupleType
  rw [strips_map, if_neg (by simpa using hne)]
  by_cases hc : (true = true) ∧ (ts.map strip).length = 1 ∧ (ts.map strip).all Ty.isAny = true
  · rw [if_pos hc]
    obtain ⟨_, h1, h2⟩ := hc
    match ts, h1, h2 with
    | [t], _, h2 =>
      simp only [List.map_cons, List.map_nil, List.all_cons, List.all_nil, Bool.and_true] at h2 ⊢
      cases hs : strip t <;> rw [hs] at h2 <;> first | rfl | cases h2
  · rw [if_neg hc, if_neg (by simp)]

theorem makeStruct_fields {S : SEnv} {E : PEnv} {fs : List (Val × Bool × Ty)} {additional : Bool} (h : RtFields S E fs)
    (ha : additional = false → ¬ fs.all (fun f => f.2.1 && f.2.2.isExact) = true) :
    makeStruct (fs.map fun f => .entry (pvVal f.1) (!f.2.1) (pvOf f.2.2)) additional = .ok (.struct O additional (stripFields fs)) := by
  have h1 := structFields_of (fs.map fun f => (f.1, f.2.1, pvOf f.2.2)) pvVal (by
    intro f hf
    obtain ⟨e, he, rfl⟩ := List.mem_map.1 hf
    exact (val_exact (rtFields_mem h e he).1).2.1)
  rw [List.map_map, List.map_map] at h1
  have e1 : ((fun f : Val × Bool × PV => Elem.entry (pvVal f.1) (!f.2.1) f.2.2) ∘ fun f : Val × Bool × Ty => (f.1, f.2.1, pvOf f.2.2)) =
      fun f => .entry (pvVal f.1) (!f.2.1) (pvOf f.2.2) := rfl
  have e2 : fs.map ((fun f : Val × Bool × PV => (f.1, f.2.1, f.2.2.asType)) ∘ fun f : Val × Bool × Ty => (f.1, f.2.1, pvOf f.2.2)) =
      stripFields fs := by
    rw [stripFields_map]
    refine List.map_congr_left fun f hf => ?_
    show (f.1, f.2.1, (pvOf f.2.2).asType) = _
    rw [pvOf_asType (rtFields_mem h f hf).2.2]
  rw [e1, e2] at h1
  unfold makeStruct
  rw [h1]
  dsimp only
  unfold Types.structMapType
  rw [if_neg]
  · rfl
  · intro hc
    rw [Bool.and_eq_true] at hc
    refine ha (by simpa using hc.1) (List.all_eq_true.2 fun f hf => ?_)
    have := List.all_eq_true.1 hc.2 (f.1, f.2.1, strip f.2.2) (by rw [stripFields_map]; exact List.mem_map_of_mem (f := fun f => (f.1, f.2.1, strip f.2.2)) hf)
    simpa [strip_isExact] using this

mutual
/-- A type that is read back is read back, wherever it stands. -/
theorem ty_rt {S : SEnv} {E : PEnv} (st : Val → List Piece) : (t : Ty) → RtTy S E t → TyOk S E st t
  | .any, _ => .of_te fun prio n hn => by rw [tyPieces] at hn ⊢; exact at_word hn fun _ _ _ => rfl
  | .nilT, _ => .of_te fun prio n hn => by rw [tyPieces] at hn ⊢; exact at_word hn fun _ _ _ => rfl
  | .boolT, _ => .of_te fun prio n hn => by rw [tyPieces] at hn ⊢; exact at_word hn fun _ _ _ => rfl
  | .intT, _ => .of_te fun prio n hn => by rw [tyPieces] at hn ⊢; exact at_word hn fun _ _ _ => rfl
  | .floatT, _ => .of_te fun prio n hn => by rw [tyPieces] at hn ⊢; exact at_word hn fun _ _ _ => rfl
  | .strT, _ => .of_te fun prio n hn => by
    rw [tyPieces] at hn ⊢
    refine at_word hn fun rest te hr => ?_
    show pString E te rest = _
    unfold pString
    exact if_neg (fol_ne hr).2.1
  | .bin min max, h => .of_te fun prio n hn => by
    rw [RtTy] at h
    obtain ⟨rfl, rfl⟩ := h
    rw [tyPieces, if_pos ⟨rfl, rfl⟩] at hn ⊢
    exact at_word hn fun _ _ _ => rfl
  | .arrT, _ => .of_te fun prio n hn => by
    rw [tyPieces] at hn ⊢
    obtain ⟨m, rfl⟩ : ∃ m, n = m + 1 := ⟨n - 1, by simp [toks_cons, toks_nil] at hn; omega⟩
    have hm : 1 ≤ m := by simp [toks_cons, toks_nil] at hn; omega
    exact at_array (S := S) hm (at_word (E := E) (s := wAny) (v := .ty .any) hm fun _ _ _ => rfl) (min := 0) (max := maxInt)
      sizes_all rfl
  | .mapT, _ => .of_te fun prio n hn => by
    rw [tyPieces] at hn ⊢
    obtain ⟨m, rfl⟩ : ∃ m, n = m + 1 := ⟨n - 1, by simp [toks_cons, toks_nil] at hn; omega⟩
    have hm : 1 ≤ m := by simp [toks_cons, toks_nil] at hn; omega
    have ha := at_word (E := E) (n := m) (s := wAny) (v := .ty .any) hm fun _ _ _ => rfl
    exact at_map (S := S) hm ha.un.any ha (min := 0) (max := maxInt) sizes_all
  | .exact v, h => .of_te fun prio n hn => by
    rw [tyPieces] at hn ⊢
    rw [RtTy] at h
    have := val_rt st v h.2 n hn
    have e : pvOf (.exact v) = pvVal v := by cases v <;> first | rfl | (simp [scalar] at h)
    rw [e]; exact this
  | .intRange min max inclusive, h => .of_te fun prio n hn => by
    rw [tyPieces] at hn ⊢
    rw [RtTy] at h
    refine at_intRange ?_ h.1 h.2
    refine Nat.le_trans ?_ hn
    unfold intRangePieces; split <;> simp [toks]
  | .floatRange min max inclusive, h => .of_te fun prio n hn => by
    rw [tyPieces] at hn ⊢
    refine at_floatRange ?_ h
    refine Nat.le_trans ?_ hn
    unfold floatRangePieces; split <;> simp [toks]
  | .sizedStr min max, h => .of_te fun prio n hn => by
    rw [RtTy] at h
    rw [tyPieces, if_neg h.2, toks_append, toks_append, toks_append] at hn ⊢
    obtain ⟨m, rfl⟩ : ∃ m, n = m + 1 := ⟨n - 1, by simp [toks_cons, toks_nil] at hn; omega⟩
    exact at_sizedStr (by simp [toks_cons, toks_nil] at hn; omega) h.1 h.2
  | .ciStr s, h => .of_un rfl fun prio n hn => by
    rw [RtTy] at h
    rw [tyPieces] at hn ⊢
    have h1 := pUnary_ci (E := E) (tk := chTok 126) rfl (at_str (E := E) (n := n) (by simp [toks_cons, toks_nil] at hn; omega) s).parses
    rw [h.1] at h1
    refine ⟨⟨chTok 126, _, rfl, by simp [Start, chTok], ?_⟩, h1⟩
    intro x hx
    simp [toks_cons, toks_nil, Piece.tok] at hx; subst hx; exact ⟨show tString ≠ 58 by decide, show tString ≠ 63 by decide⟩
  | .pattern rx, h => .of_te fun prio n hn => by
    rw [RtTy] at h
    rw [tyPieces] at hn ⊢
    exact at_rx hn h.2
  | .exactD o v, h => .of_te fun prio n hn => by
    rw [tyPieces] at hn ⊢
    rw [RtTy] at h
    have := val_rt st v h.2 n hn
    have e : pvOf (.exactD o v) = pvVal v := by
      rcases rtVal_cases h.2 with h' | ⟨vs, rfl⟩ | ⟨es, rfl⟩
      · rw [h.1] at h'; cases h'
      · rfl
      · rfl
    rw [e]; exact this
  | .sizedArr o e min max, h => .of_te fun prio n hn => by
    rw [RtTy] at h
    obtain ⟨he, hpl, hs, hne, hx⟩ := h
    have ht : toks S (tyPieces S st prio (.sizedArr o e min max)) =
        chTok 91 :: (bracketSizes S min max ++ [chTok 93] ++ toks S (tyPieces S st typePrio e)) := by
      rw [tyPieces]
      unfold bracketSizes
      split
      · rfl
      · rw [toks_append, toks_append, toks_append]
        simp [toks_cons, toks_nil, Piece.tok, chTok]
    rw [ht] at hn ⊢
    obtain ⟨m, rfl⟩ : ∃ m, n = m + 1 := ⟨n - 1, by simp at hn; omega⟩
    refine at_array (by simp at hn; omega) ((ty_rt st e he typePrio m ?_).2.2 (Or.inr (by decide)) hpl) hs ?_
    · simp at hn; omega
    · rw [pvOf_asType he]
      unfold Types.newArrayType
      rw [clampSizes_ok hs]
      dsimp only
      rw [strip_isAny, strip_isExact, if_neg hne, if_neg, strip]
      intro hc
      exact hx ⟨hc.1, by omega, hc.2.2⟩
  | .tuple o ts variadic, h => .of_te fun prio n hn => by
    rw [RtTy] at h
    obtain ⟨hts, hne, hv⟩ := h
    have ih := tys_rt st ts hts
    cases variadic with
    | false =>
      simp only [Bool.false_eq_true, if_false] at hv
      have ht : toks S (tyPieces S st prio (.tuple o ts false)) =
          chTok 123 :: (joinToks (chTok 44) ((ts.map fun t => (toks S (tyPieces S st commaPrio t), pvOf t)).map (·.1)) ++ [chTok 125]) := by
        rw [tyPieces, toks_append, toks_append, toks_tuple, List.map_map]; rfl
      rw [ht] at hn ⊢
      obtain ⟨m, rfl⟩ : ∃ m, n = m + 1 := ⟨n - 1, by simp at hn; omega⟩
      refine at_tuple (by simpa using hne) ?_ ?_
      · intro x hx
        obtain ⟨t, ht, rfl⟩ := List.mem_map.1 hx
        refine ⟨(ih t ht commaPrio m ?_).1, ty_first0 st (rtTys_mem hts t ht) (hv.1 t ht)⟩
        have := joinToks_le (chTok 44) (List.mem_map_of_mem (f := (·.1)) hx)
        simp only [List.length_cons, List.length_append, List.length_nil] at hn
        dsimp only at this
        omega
      · rw [map_asType hts]; exact newTuple_strips (S := S) (E := E) hne hv.2
    | true =>
      simp only [if_true] at hv
      obtain ⟨us, l, rfl⟩ : ∃ us l, ts = us ++ [l] := ⟨_, _, (List.dropLast_concat_getLast hne).symm⟩
      rw [List.dropLast_concat] at hv
      have ht : toks S (tyPieces S st prio (.tuple o (us ++ [l]) true)) =
          chTok 123 :: (joinToks (chTok 44) ((us.map fun t => (toks S (tyPieces S st commaPrio t), pvOf t)).map (·.1) ++
            [Piece.tok S .dots3 :: toks S (tyPieces S st commaPrio l)]) ++ [chTok 125]) := by
        rw [tyPieces, toks_append, toks_append, toks_variadic, List.map_map]; rfl
      rw [ht] at hn ⊢
      obtain ⟨m, rfl⟩ : ∃ m, n = m + 1 := ⟨n - 1, by simp at hn; omega⟩
      simp only [List.length_cons, List.length_append, List.length_nil] at hn
      refine at_variadic (S := S) (last := (toks S (tyPieces S st commaPrio l), pvOf l)) ?_ ((ih l (by simp) commaPrio m ?_).1) ?_
      · intro x hx
        obtain ⟨t, ht, rfl⟩ := List.mem_map.1 hx
        refine ⟨(ih t (List.mem_append_left _ ht) commaPrio m ?_).1, ty_first0 st (rtTys_mem hts t (List.mem_append_left _ ht)) (hv t ht)⟩
        have := joinToks_le (chTok 44) (List.mem_append_left [Piece.tok S .dots3 :: toks S (tyPieces S st commaPrio l)] (List.mem_map_of_mem (f := (·.1)) hx))
        dsimp only at this
        omega
      · have := joinToks_le (chTok 44) (List.mem_append_right ((us.map fun t => (toks S (tyPieces S st commaPrio t), pvOf t)).map (·.1))
          (List.mem_singleton.2 (rfl : Piece.tok S .dots3 :: toks S (tyPieces S st commaPrio l) = _)))
        simp only [List.length_cons] at this
        omega
      · have e : (List.map (fun x : List Token × PV => x.2.asType) (us.map fun t => (toks S (tyPieces S st commaPrio t), pvOf t)) ++ [(pvOf l).asType]) =
            strips (us ++ [l]) := by
          rw [← map_asType hts fun t => toks S (tyPieces S st commaPrio t), List.map_append, List.map_append]; rfl
        show Types.newTupleType O (_ ++ [(pvOf l).asType]) true = _
        rw [e]; exact newTuple_variadic (by simp)
  | .sizedMap o k v min max, h => .of_te fun prio n hn => by
    rw [RtTy] at h
    obtain ⟨hk, hv, hpl, hs, hne⟩ := h
    have ht : toks S (tyPieces S st prio (.sizedMap o k v min max)) = ⟨wMap, tIdentifier⟩ :: chTok 91 ::
      (toks S (tyPieces S st commaPrio k) ++ (if min = 0 ∧ max = maxInt then [] else chTok 44 :: toks S (sizeBoundaries min max)) ++ [chTok 93] ++
        toks S (tyPieces S st typePrio v)) := by
      rw [tyPieces]
      split <;> simp [toks_append, toks_cons, toks_nil, Piece.tok, chTok]
    rw [ht] at hn ⊢
    obtain ⟨m, rfl⟩ : ∃ m, n = m + 1 := ⟨n - 1, by simp at hn; omega⟩
    simp only [List.length_cons, List.length_append, List.length_nil] at hn
    have := at_map (S := S) (by omega) (ty_rt st k hk commaPrio m (by omega)).1
      ((ty_rt st v hv typePrio m (by omega)).2.2 (Or.inr (by decide)) hpl) hs
    rw [pvOf_asType hk, pvOf_asType hv] at this
    have e : Types.newMapType O (strip k) (strip v) min max = strip (.sizedMap o k v min max) := by
      unfold Types.newMapType
      rw [clampSizes_ok hs]
      dsimp only
      rw [strip_isAny, strip_isAny, if_neg hne, strip]
    rw [e] at this
    exact this
  | .struct o additional fs, h => .of_te fun prio n hn => by
    rw [RtTy] at h
    have ih := fields_rt st fs h.1
    have ht : toks S (tyPieces S st prio (.struct o additional fs)) = chTok 123 :: (joinToks (chTok 44)
        ((fs.map fun f => (⟨toks S (valPieces S st f.1), pvVal f.1, !f.2.1, toks S (tyPieces S st commaPrio f.2.2), pvOf f.2.2⟩ : FieldItem)).map (·.toks) ++
          if additional then [[Piece.tok S .dots3]] else []) ++ [chTok 125]) := by
      have e : ((fun f : FieldItem => f.toks) ∘ fun f : Val × Bool × Ty => (⟨toks S (valPieces S st f.1), pvVal f.1, !f.2.1, toks S (tyPieces S st commaPrio f.2.2), pvOf f.2.2⟩ : FieldItem)) =
          fun f => toks S (valPieces S st f.1) ++ ((if f.2.1 then [] else [chTok 63]) ++ chTok 58 :: toks S (tyPieces S st commaPrio f.2.2)) := by
        funext f
        obtain ⟨k, rq, t⟩ := f
        cases rq <;> simp [FieldItem.toks]
      rw [tyPieces, toks_append, toks_append, toks_append, toks_fields, List.map_map, e]
      cases additional with
      | false => simp [toks_cons, toks_nil, Piece.tok, chTok]
      | true =>
        simp only [if_true]
        cases fs with
        | nil => rfl
        | cons f fs =>
          rw [joinToks_snoc _ _ _ (by simp)]
          simp [toks_cons, toks_nil, Piece.tok, chTok]
    have hlen : 2 ≤ n := by
      rw [tyPieces] at hn
      simp [toks_append, toks_cons, toks_nil] at hn; omega
    obtain ⟨m, rfl⟩ : ∃ m, n = m + 1 := ⟨n - 1, by omega⟩
    have hle : ∀ f ∈ fs, (toks S (valPieces S st f.1)).length ≤ m ∧ (toks S (tyPieces S st commaPrio f.2.2)).length ≤ m := by
      intro f hf
      have hmem := List.mem_map_of_mem (f := fun f : Val × Bool × Ty => toks S (valPieces S st f.1) ++ ((if f.2.1 then [] else [chTok 63]) ++
        chTok 58 :: toks S (tyPieces S st commaPrio f.2.2))) hf
      have := joinToks_le (chTok 44) hmem
      rw [tyPieces, toks_append, toks_append, toks_append, toks_fields] at hn
      simp only [List.length_cons, List.length_append, List.length_nil, toks_cons, toks_nil] at hn this
      omega
    rw [ht]
    refine at_struct (by omega) ?_ ?_ ?_
    · intro f hf
      obtain ⟨e, he, rfl⟩ := List.mem_map.1 hf
      obtain ⟨h1, h2, h3⟩ := rtFields_mem h.1 e he
      exact ⟨key_ok h1 h2 (val_rt st e.1 h1 m (hle e he).1) _ _, (ih e he commaPrio m (hle e he).2).1.parses⟩
    · intro f hf
      obtain ⟨e, he, rfl⟩ := List.mem_map.1 hf
      obtain ⟨t, ts, h1, h2, _⟩ := val_head st (rtFields_mem h.1 e he).1
      exact ⟨t, ts, h1, h2⟩
    · rw [List.map_map]
      exact makeStruct_fields h.1 h.2
  | .allOf o ts, h => by rw [RtTy] at h; exact ok_allOf h.1 h.2 (tys_rt st ts h.1)
  | .anyOf o ts, h => by rw [RtTy] at h; exact ok_anyOf h.1 h.2 (tys_rt st ts h.1)
  | .oneOf o ts, h => by rw [RtTy] at h; exact ok_oneOf h.1 h.2 (tys_rt st ts h.1)
  | .not t, h => .of_un rfl fun prio n hn => by
    rw [RtTy] at h
    rw [tyPieces, toks_append] at hn ⊢
    change (toks S (tyPieces S st typePrio t)).length + 1 ≤ n at hn
    by_cases hc : ∃ s, t = .ciStr s
    · obtain ⟨s, rfl⟩ := hc
      have h1 := h.1
      rw [RtTy] at h1
      have h2 := pUnary_notCi (E := E) (tn := chTok 33) (tk := chTok 126) rfl rfl (at_str (E := E) (n := n) (by omega) s).parses
      rw [h1.1] at h2
      rw [tyPieces]
      refine ⟨⟨chTok 33, _, rfl, by simp [Start, chTok], ?_⟩, h2⟩
      intro x hx
      simp [toks_cons, toks_nil, Piece.tok] at hx; subst hx; decide
    · have hpl : plain t = true := by
        cases t <;> first | rfl | exact absurd rfl (h.2 _) | exact absurd ⟨_, rfl⟩ hc
      have ih := (ty_rt st t h.1 typePrio n (by omega)).2.2 (Or.inr (by decide)) hpl
      obtain ⟨x, xs, h1, h2, h3, h4, h5⟩ := ih.head
      have hp := ih.parses
      rw [h1] at hp ⊢
      have h6 := pUnary_not (E := E) (tk := chTok 33) rfl hp h4
      have e : Types.notType (pvOf t).asType = strip (.not t) := by
        rw [pvOf_asType h.1, strip]
        have hn : ∀ u, strip t ≠ .not u := by
          intro u hu
          cases t <;> simp [strip] at hu
          exact h.2 _ rfl
        cases hs : strip t <;> first | rfl | exact absurd hs (hn _)
      rw [e] at h6
      refine ⟨⟨chTok 33, _, rfl, by simp [Start, chTok], ?_⟩, h6⟩
      intro y hy
      simp at hy; subst hy
      exact ⟨(headStart h2).1, (headStart h2).2.1⟩
  | .sens o t, h => .of_te fun prio n hn => by
    rw [RtTy] at h
    rw [tyPieces] at hn ⊢
    by_cases ha : t.isAny = true
    · have : t = .any := by cases t <;> first | rfl | cases ha
      subst this
      refine at_word (by simp [ha, toks_cons, toks_nil] at hn; omega) fun rest te hr => ?_
      show pSensitive E te rest = _
      unfold pSensitive
      exact (if_neg (fol_ne hr).2.1).trans (if_neg (by simp [(fol_ne hr).2.2.2.2.2.2]))
    · simp only [ha, Bool.false_eq_true, if_false, toks_append] at hn ⊢
      obtain ⟨m, rfl⟩ : ∃ m, n = m + 1 := ⟨n - 1, by simp [toks_cons, toks_nil] at hn; omega⟩
      have ih := (ty_rt st t h.1 prio m (by simp [toks_cons, toks_nil] at hn; omega)).1
      have e : pvOf t = .ty (strip t) := by
        cases t <;> first | rfl | exact absurd rfl h.2.1 | exact absurd rfl (h.2.2 _)
      rw [e] at ih
      exact at_sens ih
  | .metaT t, h => .of_te fun prio n hn => by
    rw [RtTy] at h
    rw [tyPieces] at hn ⊢
    by_cases ha : t.isAny = true
    · have : t = .any := by cases t <;> first | rfl | cases ha
      subst this
      refine at_word (by simp [ha, toks_cons, toks_nil] at hn; omega) fun rest te hr => ?_
      show pMeta E te rest = _
      unfold pMeta
      exact if_pos (fol_ne hr).2.1
    · simp only [ha, Bool.false_eq_true, if_false, toks_append] at hn ⊢
      obtain ⟨m, rfl⟩ : ∃ m, n = m + 1 := ⟨n - 1, by simp [toks_cons, toks_nil] at hn; omega⟩
      have ih := (ty_rt st t h prio m (by simp [toks_cons, toks_nil] at hn; omega)).1
      have := at_meta ih
      rw [pvOf_asType h] at this
      exact this
  | .allOfVal _ _, h => by rw [RtTy] at h; · exact h.elim
                           all_goals simp
  | .regexpT, h => by rw [RtTy] at h; · exact h.elim
                      all_goals simp
  | .timeT, h => by rw [RtTy] at h; · exact h.elim
                    all_goals simp
  | .metaMeta, h => by rw [RtTy] at h; · exact h.elim
                       all_goals simp

theorem tys_rt {S : SEnv} {E : PEnv} (st : Val → List Piece) : (ts : List Ty) → RtTys S E ts → ∀ t ∈ ts, TyOk S E st t
  | [], _, v, hv => by cases hv
  | w :: ts, h, t, ht => by
    rw [RtTys] at h
    rcases List.mem_cons.1 ht with ht | ht
    · have := ty_rt st w h.1; rw [ht]; exact this
    · exact tys_rt st ts h.2 t ht

theorem fields_rt {S : SEnv} {E : PEnv} (st : Val → List Piece) : (fs : List (Val × Bool × Ty)) → RtFields S E fs →
    ∀ f ∈ fs, TyOk S E st f.2.2
  | [], _, v, hv => by cases hv
  | (k, rq, t) :: fs, h, f, hf => by
    rw [RtFields] at h
    rcases List.mem_cons.1 hf with hf | hf
    · have := ty_rt st t h.1.2.2; rw [hf]; exact this
    · exact fields_rt st fs h.2 f hf
end

end Verif.Text
