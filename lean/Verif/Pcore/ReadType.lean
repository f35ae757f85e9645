import Verif.Pcore.Good3
/-!
# Reading the tokens of type expressions
-/
set_option autoImplicit false
set_option linter.unusedVariables false
set_option linter.unusedSimpArgs false
set_option linter.unnecessarySeqFocus false
namespace Verif.Pcore
open Verif.Value (Str Val F64 eq)
open Verif.Types (Ty Oid maxInt instanceOf)
open Verif.Text

/-- A type that the expression describes -/
def TyOf (E : Env) (p : Pt) (m : Nat) (v : PV) : Prop := ∃ t, v = .ty t ∧ Good E p m t

variable {E : Env} {S : SEnv}

abbrev Item := List Token × (Nat → PV → Prop)

/-- A name with arguments in brackets -/
theorem reads_bracket {nm : Name} {P : Nat → PV → Prop} (h : plainType nm = none) (as : List (List Pc)) (items : List Item)
    (he : as.map (tk S) = items.map (·.1)) (hi : ∀ i ∈ items, Reads E i.1 i.2)
    (hp : ∀ k vs, List.Forall₂ (fun i v => ∃ m, k < m ∧ i.2 m v) items vs → ∃ t, argsType E (.user k) vs nm = .ok t ∧ P k (.ty t)) :
    Reads E (tk S (.name nm :: inBrackets as)) P := by
  show Reads E (⟨nm.text, tName⟩ :: tk S (inBrackets as)) P
  rw [tk_brackets, he]
  exact reads_args h items hi hp

theorem panic_ok {α : Type} {o : Option α} {P : α → Prop} (h : ∃ t, o = some t ∧ P t) : ∃ t, orPanic o = .ok t ∧ P t := by
  obtain ⟨t, rfl, ht⟩ := h
  exact ⟨t, rfl, ht⟩

theorem tyOf {p : Pt} {k : Nat} {o : Except PErr Ty} (h : ∃ t, o = .ok t ∧ Good E p k t) : ∃ t, o = .ok t ∧ TyOf E p k (.ty t) := by
  obtain ⟨t, h1, h2⟩ := h
  exact ⟨t, h1, t, rfl, h2⟩

theorem reads_leaf {nm : Name} {p : Pt} {t : Ty} (h : plainType nm = some t) (hg : ∀ k, Good E p k t) : Reads E (tk S [.name nm]) (TyOf E p) :=
  reads_plain h fun k => ⟨t, rfl, hg k⟩

theorem reads_bareT {nm : Name} {p : Pt} (h : plainType nm = none) (hg : ∀ k, ∃ t, bareType E (.user k) nm = .ok t ∧ Good E p k t) :
    Reads E (tk S [.name nm]) (TyOf E p) :=
  reads_bare h fun k => tyOf (hg k)

/-- One argument -/
theorem reads_arg1 {nm : Name} {p : Pt} {a : List Pc} {P : Nat → PV → Prop} (h : plainType nm = none) (ha : Reads E (tk S a) P)
    (hp : ∀ k m v, k < m → P m v → ∃ t, argsType E (.user k) [v] nm = .ok t ∧ Good E p k t) :
    Reads E (tk S (.name nm :: inBrackets [a])) (TyOf E p) := by
  refine reads_bracket h [a] [(tk S a, P)] rfl (by simpa using ha) ?_
  intro k vs hf
  cases hf with
  | cons h1 h2 =>
    cases h2
    obtain ⟨m, hm, hv⟩ := h1
    exact tyOf (hp k m _ hm hv)

theorem reads_arg2 {nm : Name} {p : Pt} {a b : List Pc} {P Q : Nat → PV → Prop} (h : plainType nm = none) (ha : Reads E (tk S a) P)
    (hb : Reads E (tk S b) Q)
    (hp : ∀ k m v m' v', k < m → P m v → k < m' → Q m' v' → ∃ t, argsType E (.user k) [v, v'] nm = .ok t ∧ Good E p k t) :
    Reads E (tk S (.name nm :: inBrackets [a, b])) (TyOf E p) := by
  refine reads_bracket h [a, b] [(tk S a, P), (tk S b, Q)] rfl (by simpa using ⟨ha, hb⟩) ?_
  intro k vs hf
  cases hf with
  | cons h1 h2 =>
    cases h2 with
    | cons h2 h3 =>
      cases h3
      obtain ⟨m, hm, hv⟩ := h1
      obtain ⟨m', hm', hv'⟩ := h2
      exact tyOf (hp k m _ m' _ hm hv hm' hv')

theorem reads_arg3 {nm : Name} {p : Pt} {a b c : List Pc} {P Q R : Nat → PV → Prop} (h : plainType nm = none) (ha : Reads E (tk S a) P)
    (hb : Reads E (tk S b) Q) (hc : Reads E (tk S c) R)
    (hp : ∀ k m v m' v' m'' v'', k < m → P m v → k < m' → Q m' v' → k < m'' → R m'' v'' → ∃ t, argsType E (.user k) [v, v', v''] nm = .ok t ∧ Good E p k t) :
    Reads E (tk S (.name nm :: inBrackets [a, b, c])) (TyOf E p) := by
  refine reads_bracket h [a, b, c] [(tk S a, P), (tk S b, Q), (tk S c, R)] rfl (by simpa using ⟨ha, hb, hc⟩) ?_
  intro k vs hf
  cases hf with
  | cons h1 h2 =>
    cases h2 with
    | cons h2 h3 =>
      cases h3 with
      | cons h3 h4 =>
        cases h4
        obtain ⟨m, hm, hv⟩ := h1
        obtain ⟨m', hm', hv'⟩ := h2
        obtain ⟨m'', hm'', hv''⟩ := h3
        exact tyOf (hp k m _ m' _ m'' _ hm hv hm' hv' hm'' hv'')

theorem reads_arg4 {nm : Name} {p : Pt} {a b c d : List Pc} {P Q R T : Nat → PV → Prop} (h : plainType nm = none) (ha : Reads E (tk S a) P)
    (hb : Reads E (tk S b) Q) (hc : Reads E (tk S c) R) (hd : Reads E (tk S d) T)
    (hp : ∀ k m v m' v' m2 v2 m3 v3, k < m → P m v → k < m' → Q m' v' → k < m2 → R m2 v2 → k < m3 → T m3 v3 →
      ∃ t, argsType E (.user k) [v, v', v2, v3] nm = .ok t ∧ Good E p k t) :
    Reads E (tk S (.name nm :: inBrackets [a, b, c, d])) (TyOf E p) := by
  refine reads_bracket h [a, b, c, d] [(tk S a, P), (tk S b, Q), (tk S c, R), (tk S d, T)] rfl (by simpa using ⟨ha, hb, hc, hd⟩) ?_
  intro k vs hf
  cases hf with
  | cons h1 h2 =>
    cases h2 with
    | cons h2 h3 =>
      cases h3 with
      | cons h3 h4 =>
        cases h4 with
        | cons h4 h5 =>
          cases h5
          obtain ⟨m, hm, hv⟩ := h1
          obtain ⟨m', hm', hv'⟩ := h2
          obtain ⟨m2, hm2, hv2⟩ := h3
          obtain ⟨m3, hm3, hv3⟩ := h4
          exact tyOf (hp k m _ m' _ m2 _ m3 _ hm hv hm' hv' hm2 hv2 hm3 hv3)

theorem reads_fb (b : FB) (h : b.pc.Fine S E) (d : F64) : Reads E (tk S [b.pc]) fun _ v => v.float? E d = some (b.val E) := by
  cases b with
  | int i =>
    obtain ⟨h1, h2⟩ := reads_int (S := S) (E := E) i
    refine ⟨h1, fun n rest hn hs => ?_⟩
    obtain ⟨v, e, rfl⟩ := h2 n rest hn hs
    exact ⟨_, e, rfl⟩
  | float f =>
    obtain ⟨h1, h2⟩ := reads_float (S := S) (E := E) f h.2
    refine ⟨h1, fun n rest hn hs => ?_⟩
    obtain ⟨v, e, rfl⟩ := h2 n rest hn hs
    exact ⟨_, e, rfl⟩

theorem mem_commas {c : Pc} : ∀ {as : List (List Pc)} {a : List Pc}, a ∈ as → c ∈ a → c ∈ commas as
  | [b], a, h, hc => by simp at h; subst h; exact hc
  | b :: b' :: as, a, h, hc => by
    show c ∈ b ++ .comma :: commas (b' :: as)
    rcases List.mem_cons.1 h with rfl | h
    · exact List.mem_append_left _ hc
    · exact List.mem_append_right _ (List.mem_cons_of_mem _ (mem_commas h hc))

theorem mem_brackets {c : Pc} {as : List (List Pc)} {a : List Pc} {nm : Name} (h : a ∈ as) (hc : c ∈ a) : c ∈ Pc.name nm :: inBrackets as :=
  List.mem_cons_of_mem _ (List.mem_cons_of_mem _ (List.mem_append_left _ (mem_commas h hc)))

theorem piecesList_eq : ∀ ts : List Pt, piecesList ts = ts.map Pt.pieces
  | [] => rfl
  | t :: ts => by rw [piecesList, piecesList_eq ts]; rfl

theorem piecesFields_eq : ∀ fs : List (Str × Bool × Pt), piecesFields fs = fs.map fun f => keyPieces f.1 f.2.1 ++ .rocket :: f.2.2.pieces
  | [] => rfl
  | (k, o, t) :: fs => by rw [piecesFields, piecesFields_eq fs]; rfl

theorem Forall₂_ty {k : Nat} : ∀ {ps : List Pt} {vs : List PV},
    List.Forall₂ (fun (i : Item) v => ∃ m, k < m ∧ i.2 m v) (ps.map fun p => (tk S p.pieces, TyOf E p)) vs →
    ∃ ts, vs = ts.map .ty ∧ List.Forall₂ (fun p t => ∃ m, k < m ∧ Good E p m t) ps ts
  | [], _, .nil => ⟨[], rfl, .nil⟩
  | p :: ps, _, .cons h r => by
    obtain ⟨m, hm, t, rfl, g⟩ := h
    obtain ⟨ts, rfl, hts⟩ := Forall₂_ty r
    exact ⟨t :: ts, rfl, .cons ⟨m, hm, g⟩ hts⟩

theorem allSome_ty (ts : List Ty) : allSome PV.type? (ts.map .ty) = some ts := by
  induction ts with
  | nil => rfl
  | cons t ts ih => simp [allSome, PV.type?, ih]

theorem Forall₂_const {α : Type} {k : Nat} (f : α → PV) (q : α → List Token) : ∀ {l : List α} {vs : List PV},
    List.Forall₂ (fun (i : Item) v => ∃ m, k < m ∧ i.2 m v) (l.map fun a => (q a, fun _ v => v = f a)) vs → vs = l.map f
  | [], _, .nil => rfl
  | a :: l, _, .cons h r => by
    obtain ⟨m, hm, e⟩ := h
    rw [Forall₂_const f q r]
    show _ = f a :: _
    rw [show _ = f a from e]

theorem tuple_args {k : Nat} {ts : List Ty} (hne : ts ≠ []) : tupleFromArgs (.user k) (ts.map .ty) = Types.newTupleType (.user k) ts false := by
  unfold tupleFromArgs
  cases hr : (ts.map PV.ty).reverse with
  | nil => simp at hr; exact absurd hr hne
  | cons x r =>
    have hx : x ∈ ts.map PV.ty := by rw [← List.mem_reverse, hr]; exact List.mem_cons_self
    obtain ⟨t, _, rfl⟩ := List.mem_map.1 hx
    show tupleOf _ _ _ _ = _
    rw [tupleOf, allSome_ty]
    simp

/-- What is read for the key of a struct -/
def KeyOf (k : Str) (opt : Bool) (_ : Nat) (v : PV) : Prop :=
  if opt then ∃ o, v = .ty (.anyOf o [.nilT, .exact (.str k)]) else v = .val (.str k)

theorem reads_key (k : Str) (opt : Bool) : Reads E (tk S (keyPieces k opt)) (KeyOf k opt) := by
  cases opt with
  | false => exact reads_str k
  | true =>
    refine reads_bracket (nm := .optional) rfl [[.str k]] [(tk S [.str k], fun _ v => v = .val (.str k))] rfl (by simpa using reads_str k) ?_
    intro n vs hf
    cases hf with
    | cons h1 h2 =>
      cases h2
      obtain ⟨m, hm, rfl⟩ := h1
      exact ⟨_, rfl, .user n, by rw [opt_str]⟩

theorem structKey_of {k : Str} {opt : Bool} {n : Nat} {v : PV} (h : KeyOf k opt n v) :
    structKey (optionalValue v).1 = .ok (.str k) ∧ (optionalValue v).2 = opt := by
  cases opt with
  | false => rw [show v = .val (.str k) from h]; exact ⟨rfl, rfl⟩
  | true => obtain ⟨o, rfl⟩ := h; exact ⟨rfl, rfl⟩

theorem structFields_of {k : Nat} : ∀ {fs : List (Str × Bool × Pt)} {es : List (PV × PV)},
    List.Forall₂ (fun (f : Str × Bool × Pt) (e : PV × PV) => (∃ m, k < m ∧ KeyOf f.1 f.2.1 m e.1) ∧ ∃ m, k < m ∧ TyOf E f.2.2 m e.2) fs es →
    ∃ gs, structFields (.user k) es = .ok gs ∧ List.Forall₂ (FieldOf E k) fs gs
  | [], _, .nil => ⟨[], rfl, .nil⟩
  | (s, opt, p) :: fs, _, .cons (b := (a, b)) h r => by
    obtain ⟨⟨m, hm, hk⟩, m', hm', t, rfl, g⟩ := h
    obtain ⟨gs, e, hgs⟩ := structFields_of r
    obtain ⟨e1, e2⟩ := structKey_of hk
    refine ⟨(.str s, !opt, t) :: gs, ?_, .cons ⟨rfl, rfl, m', hm', g⟩ hgs⟩
    dsimp only at e1 e2
    simp only [structFields, e1, PV.asType, e, e2]

theorem Forall₂_map_left {α β γ : Type} {R : β → γ → Prop} {f : α → β} : ∀ {l : List α} {l' : List γ},
    List.Forall₂ R (l.map f) l' → List.Forall₂ (fun a c => R (f a) c) l l'
  | [], _, .nil => .nil
  | _ :: _, _, .cons h r => .cons h (Forall₂_map_left r)

theorem Forall₂_split {α β : Type} {R : α → β → Prop} {l2 : List α} : ∀ {l1 : List α} {l : List β}, List.Forall₂ R (l1 ++ l2) l →
    ∃ a b, List.Forall₂ R l1 a ∧ List.Forall₂ R l2 b ∧ l = a ++ b
  | [], l, h => ⟨[], l, .nil, h, rfl⟩
  | _ :: _, _, .cons h r => by
    obtain ⟨a, b, ha, hb, rfl⟩ := Forall₂_split r
    exact ⟨_ :: a, b, .cons h ha, hb, rfl⟩

theorem int_ty (d : BitVec 64) (t : Ty) : (PV.ty t).int? d = none := rfl

mutual
/-- The tokens of an expression are read as a type that the expression describes. -/
theorem reads_type : ∀ (p : Pt), p.Ok E → (∀ c ∈ p.pieces, c.Fine S E) → Reads E (tk S p.pieces) (TyOf E p)
  | .any, _, _ => reads_leaf rfl fun k => good_any
  | .undef, _, _ => reads_leaf rfl fun k => good_undef
  | .boolean, _, _ => reads_leaf rfl fun k => good_boolean
  | .trueT, _, _ => reads_leaf rfl fun k => good_true
  | .falseT, _, _ => reads_leaf rfl fun k => good_false
  | .timestamp, _, _ => reads_leaf rfl fun k => good_timestamp
  | .integer .all, _, _ => reads_bareT rfl fun k => ⟨_, rfl, good_integer⟩
  | .integer (.low lo), _, _ => reads_arg1 rfl (reads_lim lo) (by rintro k m v hk rfl; exact panic_ok (good_integerLow lo))
  | .integer (.both lo hi), h, _ =>
    reads_arg2 rfl (reads_lim lo) (reads_lim hi) (by rintro k m v m' v' hk rfl hk' rfl; exact panic_ok (good_integerBoth h))
  | .floatAny, _, _ => reads_bareT rfl fun k => ⟨_, rfl, good_float⟩
  | .floatLow lo, h, hc =>
    reads_arg1 rfl (reads_fb lo (hc _ (mem_brackets (List.mem_singleton.2 rfl) (List.mem_singleton.2 rfl))) Types.F64.min)
      (by rintro k m v hk hv; exact panic_ok (good_floatLow h.1 h.2 hv))
  | .float lo hi, h, hc =>
    reads_arg2 rfl (reads_fb lo (hc _ (mem_brackets (a := [lo.pc]) (by simp) (List.mem_singleton.2 rfl))) Types.F64.min)
      (reads_fb hi (hc _ (mem_brackets (a := [hi.pc]) (by simp) (List.mem_singleton.2 rfl))) Types.F64.max)
      (by rintro k m v m' v' hk hv hk' hv'; exact panic_ok (good_floatBoth h.1 h.2 hv hv'))
  | .numberAny, h, _ => reads_bareT rfl fun k => panic_ok (good_numberAny h)
  | .number lo hi, h, _ =>
    reads_arg2 rfl (reads_int lo) (reads_int hi) (by rintro k m v m' v' hk rfl hk' rfl; exact panic_ok (good_number h))
  | .stringAny, _, _ => reads_bareT rfl fun k => ⟨_, rfl, good_string⟩
  | .stringLow lo, h, _ => reads_arg1 rfl (reads_int lo) (by rintro k m v hk rfl; exact panic_ok (good_stringLow h))
  | .string lo hi, h, _ =>
    reads_arg2 rfl (reads_int lo) (reads_int hi) (by rintro k m v m' v' hk rfl hk' rfl; exact panic_ok (good_stringBoth h.1 h.2))
  | .stringVal s, _, _ => reads_arg1 rfl (reads_str s) (by rintro k m v hk rfl; exact panic_ok ⟨_, rfl, good_stringVal s⟩)
  | .binary .all, _, _ => reads_bareT rfl fun k => ⟨_, rfl, good_binaryAll⟩
  | .binary (.low lo), h, _ => reads_arg1 rfl (reads_lim lo) (by rintro k m v hk rfl; exact panic_ok (good_binaryLow h))
  | .binary (.both lo hi), h, _ =>
    reads_arg2 rfl (reads_lim lo) (reads_lim hi) (by rintro k m v m' v' hk rfl hk' rfl; exact panic_ok (good_binaryBoth h))
  | .enumAny, _, _ => reads_bareT rfl fun k => ⟨_, rfl, good_enumAny⟩
  | .enum ss none, h, _ => by
    refine reads_bracket rfl (ss.map fun s => [.str s]) (ss.map fun s => (tk S [.str s], fun _ v => v = .val (.str s))) (by simp) ?_ ?_
    · intro i hi
      obtain ⟨s, _, rfl⟩ := List.mem_map.1 hi
      exact reads_str s
    · intro k vs hf
      rw [Forall₂_const (fun s => .val (.str s)) _ hf]
      refine tyOf (panic_ok ⟨_, ?_, good_enumOf (ci := none) h.2⟩)
      rw [enumType, enumArgs_none (h.1.resolve_right (by simp))]
      rfl
  | .enum ss (some ci), h, _ => by
    refine reads_bracket (S := S) (nm := .enum) rfl ((ss.map fun s => [.str s]) ++ [[.bool ci]])
      ((ss.map fun s => (tk S [.str s], fun _ v => v = .val (.str s))) ++ [(tk S [.bool ci], fun _ v => v = .val (.bool ci))]) (by simp) ?_ ?_
    · intro i hi
      rcases List.mem_append.1 hi with hi | hi
      · obtain ⟨s, _, rfl⟩ := List.mem_map.1 hi
        exact reads_str s
      · rw [List.mem_singleton.1 hi]; exact reads_bool ci
    · intro k vs hf
      obtain ⟨a, b, ha, hb, rfl⟩ := Forall₂_split hf
      rw [Forall₂_const (fun s => .val (.str s)) _ ha]
      cases hb with
      | cons h1 h2 =>
        cases h2
        obtain ⟨m, hm, rfl⟩ := h1
        refine tyOf (panic_ok ⟨_, ?_, good_enumOf (ci := some ci) h.2⟩)
        rw [enumType, enumArgs_some]
        cases ci <;> rfl
  | .patternAny, _, _ => reads_bareT rfl fun k => ⟨_, rfl, good_patternAny⟩
  | .pattern rs, h, _ => by
    refine reads_bracket rfl (rs.map fun s => [.rx s]) (rs.map fun s => (tk S [.rx s], fun _ v => v = .val (.regexp s))) (by simp) ?_ ?_
    · intro i hi
      obtain ⟨s, hs, rfl⟩ := List.mem_map.1 hi
      exact reads_rx s (h.2 s hs)
    · intro k vs hf
      rw [Forall₂_const (fun s => .val (.regexp s)) _ hf]
      exact tyOf (panic_ok (good_pattern h.1))
  | .regexpAny, _, _ => reads_bareT rfl fun k => ⟨_, rfl, good_regexpAny⟩
  | .regexp r, h, _ => reads_arg1 rfl (reads_rx r h) (by rintro k m v hk rfl; exact panic_ok ⟨_, rfl, good_regexp r⟩)
  | .arrayAny .all, _, _ => reads_bareT rfl fun k => ⟨_, rfl, good_arrayAny⟩
  | .arrayAny (.low lo), h, _ => reads_arg1 rfl (reads_lim lo) (by
      rintro k m v hk rfl
      refine panic_ok ?_
      simp only [arrayType, int_limVal]
      exact good_newArrayAny fun n hn => inSize_low h hn)
  | .arrayAny (.both lo hi), h, _ => reads_arg2 rfl (reads_lim lo) (reads_lim hi) (by
      rintro k m v m' v' hk rfl hk' rfl
      refine panic_ok ?_
      simp only [arrayType, int_limVal, Option.bind_some]
      exact good_newArrayAny fun n hn => inSize_both h hn)
  | .array e .all, h, hc => reads_arg1 rfl (reads_type e h.2.2 fun c hx => hc c (mem_brackets (a := e.pieces) (by simp) hx)) (by
      rintro k m v hk ⟨t, rfl, g⟩
      refine panic_ok ?_
      simp only [arrayType, int_ty, PV.type?, Option.bind_some]
      exact good_newArray (p := e) g hk h.2.1 fun n hn => inSize_all hn)
  | .array e (.low lo), h, hc => reads_arg2 rfl (reads_type e h.2.2 fun c hx => hc c (mem_brackets (a := e.pieces) (by simp) hx)) (reads_lim lo) (by
      rintro k m v m' v' hk ⟨t, rfl, g⟩ hk' rfl
      refine panic_ok ?_
      simp only [arrayType, int_ty, PV.type?, Option.bind_some, int_limVal]
      exact good_newArray (p := e) g hk h.2.1 fun n hn => inSize_low h.1 hn)
  | .array e (.both lo hi), h, hc =>
    reads_arg3 rfl (reads_type e h.2.2 fun c hx => hc c (mem_brackets (a := e.pieces) (by simp) hx)) (reads_lim lo) (reads_lim hi) (by
      rintro k m v m' v' m2 v2 hk ⟨t, rfl, g⟩ hk' rfl hk2 rfl
      refine panic_ok ?_
      simp only [arrayType, PV.type?, Option.bind_some, int_limVal]
      exact good_newArray (p := e) g hk h.2.1 fun n hn => inSize_both h.1 hn)
  | .hashAny .all, _, _ => reads_bareT rfl fun k => ⟨_, rfl, good_hashAny⟩
  | .hashAny (.low lo), h, _ => reads_arg1 rfl (reads_lim lo) (by
      rintro k m v hk rfl
      refine panic_ok ?_
      simp only [hashType, int_limVal, Option.map_some]
      exact ⟨_, rfl, good_newMapAny fun n hn => inSize_low h hn⟩)
  | .hashAny (.both lo hi), h, _ => reads_arg2 rfl (reads_lim lo) (reads_lim hi) (by
      rintro k m v m' v' hk rfl hk' rfl
      refine panic_ok ?_
      simp only [hashType, int_limVal, Option.map_some]
      exact ⟨_, rfl, good_newMapAny fun n hn => inSize_both h hn⟩)
  | .hash a b .all, h, hc =>
    reads_arg2 rfl (reads_type a h.2.1 fun c hx => hc c (mem_brackets (a := a.pieces) (by simp) hx))
      (reads_type b h.2.2 fun c hx => hc c (mem_brackets (a := b.pieces) (by simp) hx)) (by
      rintro k m v m' v' hk ⟨t, rfl, g⟩ hk' ⟨t', rfl, g'⟩
      show ∃ u, orPanic (hashType (.user k) [.ty t, .ty t']) = .ok u ∧ _
      refine panic_ok ?_
      simp only [hashType, int_ty, PV.type?, Option.bind_some, Option.map_some]
      exact ⟨_, rfl, good_newMap g hk g' hk' fun n hn => inSize_all hn⟩)
  | .hash a b (.low lo), h, hc =>
    reads_arg3 rfl (reads_type a h.2.1 fun c hx => hc c (mem_brackets (a := a.pieces) (by simp) hx))
      (reads_type b h.2.2 fun c hx => hc c (mem_brackets (a := b.pieces) (by simp) hx)) (reads_lim lo) (by
      rintro k m v m' v' m2 v2 hk ⟨t, rfl, g⟩ hk' ⟨t', rfl, g'⟩ hk2 rfl
      refine panic_ok ?_
      simp only [hashType, PV.type?, Option.bind_some, Option.map_some, int_limVal]
      exact ⟨_, rfl, good_newMap g hk g' hk' fun n hn => inSize_low h.1 hn⟩)
  | .hash a b (.both lo hi), h, hc =>
    reads_arg4 rfl (reads_type a h.2.1 fun c hx => hc c (mem_brackets (a := a.pieces) (by simp) hx))
      (reads_type b h.2.2 fun c hx => hc c (mem_brackets (a := b.pieces) (by simp) hx)) (reads_lim lo) (reads_lim hi) (by
      rintro k m v m' v' m2 v2 m3 v3 hk ⟨t, rfl, g⟩ hk' ⟨t', rfl, g'⟩ hk2 rfl hk3 rfl
      refine panic_ok ?_
      simp only [hashType, PV.type?, Option.bind_some, Option.map_some, int_limVal]
      exact ⟨_, rfl, good_newMap g hk g' hk' fun n hn => inSize_both h.1 hn⟩)
  | .tupleAny, _, _ => reads_bareT rfl fun k => ⟨_, rfl, good_tupleAny⟩
  | .tuple ts, h, hc => by
    have hp : (Pt.tuple ts).pieces = .name .tuple :: inBrackets (ts.map Pt.pieces) := by rw [Pt.pieces, piecesList_eq]
    rw [hp] at hc ⊢
    refine reads_bracket rfl (ts.map Pt.pieces) (ts.map fun p => (tk S p.pieces, TyOf E p)) (by simp) ?_ ?_
    · intro i hi
      obtain ⟨p, hp, rfl⟩ := List.mem_map.1 hi
      exact reads_types ts h.2.2 (fun p hp c hx => hc c (mem_brackets (List.mem_map.2 ⟨p, hp, rfl⟩) hx)) p hp
    · intro k vs hf
      obtain ⟨us, rfl, hus⟩ := Forall₂_ty hf
      refine tyOf (panic_ok ?_)
      rw [tuple_args (by intro e; subst e; cases hus; exact h.1 rfl)]
      exact good_tuple hus h.1 h.2.1
  | .structAny, _, _ => reads_bareT rfl fun k => panic_ok good_structAny
  | .struct fs, h, hc => by
    have hp : (Pt.struct fs).pieces = .name .struct :: inBrackets [.openB :: (commas (fs.map fun f => keyPieces f.1 f.2.1 ++ .rocket :: f.2.2.pieces) ++ [.closeB])] := by
      rw [Pt.pieces, piecesFields_eq]
      simp [inBrackets, commas]
    rw [hp] at hc ⊢
    have hr : Reads E (tk S (.openB :: (commas (fs.map fun f => keyPieces f.1 f.2.1 ++ .rocket :: f.2.2.pieces) ++ [.closeB]))) fun m v =>
        ∃ es, v = .map es ∧ List.Forall₂ (fun (f : Str × Bool × Pt) (e : PV × PV) => (∃ k, m < k ∧ KeyOf f.1 f.2.1 k e.1) ∧ ∃ k, m < k ∧ TyOf E f.2.2 k e.2) fs es := by
      have := reads_hash (E := E) (fs.map fun f => ((tk S (keyPieces f.1 f.2.1), KeyOf f.1 f.2.1), (tk S f.2.2.pieces, TyOf E f.2.2))) (by
        intro i hi
        obtain ⟨f, hf, rfl⟩ := List.mem_map.1 hi
        refine ⟨reads_key _ _, reads_fields fs h.2.2 (fun f hf c hx => hc c (mem_brackets (List.mem_singleton.2 rfl) ?_)) f hf⟩
        exact List.mem_cons_of_mem _ (List.mem_append_left _ (mem_commas (List.mem_map.2 ⟨f, hf, rfl⟩) (by simp [hx]))))
      have e : tk S (.openB :: (commas (fs.map fun f => keyPieces f.1 f.2.1 ++ .rocket :: f.2.2.pieces) ++ [.closeB])) =
          tOpenB :: (ctoks ((fs.map fun f => ((tk S (keyPieces f.1 f.2.1), KeyOf f.1 f.2.1), (tk S f.2.2.pieces, TyOf E f.2.2))).map fun i => i.1.1 ++ tRock :: i.2.1) ++ [tCloseB]) := by
        show tOpenB :: tk S (commas _ ++ [.closeB]) = _
        rw [tk_append, tk_commas, List.map_map, List.map_map]
        congr 2
        congr 1
        refine List.map_congr_left fun f _ => ?_
        show tk S (keyPieces f.1 f.2.1 ++ .rocket :: f.2.2.pieces) = _
        rw [tk_append]
        rfl
      rw [e]
      refine ⟨this.1, fun n rest hn hs => ?_⟩
      obtain ⟨v, hv, es, rfl, hes⟩ := this.2 n rest hn hs
      exact ⟨_, hv, es, rfl, Forall₂_map_left hes⟩
    refine reads_arg1 rfl hr ?_
    rintro k m v hk ⟨es, rfl, hes⟩
    have hes' := hes.imp fun (f : Str × Bool × Pt) (e : PV × PV) (h : (∃ j, m < j ∧ KeyOf f.1 f.2.1 j e.1) ∧ ∃ j, m < j ∧ TyOf E f.2.2 j e.2) =>
      (⟨h.1.imp fun j hj => ⟨Nat.lt_trans hk hj.1, hj.2⟩, h.2.imp fun j hj => ⟨Nat.lt_trans hk hj.1, hj.2⟩⟩ :
        (∃ j, k < j ∧ KeyOf f.1 f.2.1 j e.1) ∧ ∃ j, k < j ∧ TyOf E f.2.2 j e.2)
    obtain ⟨gs, e, hgs⟩ := structFields_of hes'
    obtain ⟨u, hu, g⟩ := good_struct hgs h.1 h.2.1
    refine ⟨u, ?_, g⟩
    simp only [argsType, structType, e, hu]
    rfl
  | .variantAny, _, _ => reads_bareT rfl fun k => ⟨_, rfl, by
      refine ⟨by simp [Ty.Acyc, Types.occs, Types.Acycs], by simp [Ty.occ, Types.occs, base], by simp [Types.NilOk, Types.NilOks], fun v hw hf => ?_, by simp⟩
      rw [Types.instanceOf_has (by simp [Ty.Acyc, Types.occs, Types.Acycs]), Types.has_anyOf]
      simp [Den]⟩
  | .variant ts, h, hc => by
    have hp : (Pt.variant ts).pieces = .name .variant :: inBrackets (ts.map Pt.pieces) := by rw [Pt.pieces, piecesList_eq]
    rw [hp] at hc ⊢
    refine reads_bracket rfl (ts.map Pt.pieces) (ts.map fun p => (tk S p.pieces, TyOf E p)) (by simp) ?_ ?_
    · intro i hi
      obtain ⟨p, hp, rfl⟩ := List.mem_map.1 hi
      exact reads_types ts h (fun p hp c hx => hc c (mem_brackets (List.mem_map.2 ⟨p, hp, rfl⟩) hx)) p hp
    · intro k vs hf
      obtain ⟨us, rfl, hus⟩ := Forall₂_ty hf
      refine tyOf (panic_ok ⟨_, ?_, good_variant hus⟩)
      rw [variantType, allSome_ty]
      rfl
  | .optionalAny, _, _ => reads_bareT rfl fun k => ⟨_, rfl, good_optionalAny⟩
  | .optional t, h, hc => reads_arg1 rfl (reads_type t h fun c hx => hc c (mem_brackets (a := t.pieces) (by simp) hx)) (by
      rintro k m v hk ⟨t, rfl, g⟩
      exact panic_ok ⟨_, rfl, good_opt g hk⟩)
  | .optionalVal s, _, _ => reads_arg1 rfl (reads_str s) (by rintro k m v hk rfl; exact panic_ok ⟨_, rfl, good_optionalVal s⟩)
  | .notUndefAny, _, _ => reads_bareT rfl fun k => ⟨_, rfl, good_notUndefAny⟩
  | .notUndef t, h, hc => reads_arg1 rfl (reads_type t h fun c hx => hc c (mem_brackets (a := t.pieces) (by simp) hx)) (by
      rintro k m v hk ⟨t, rfl, g⟩
      exact panic_ok (good_notUndef g hk))
  | .sensitiveAny, _, _ => reads_bareT rfl fun k => ⟨_, rfl, good_sensitiveAny⟩
  | .sensitive t, h, hc => reads_arg1 rfl (reads_type t h fun c hx => hc c (mem_brackets (a := t.pieces) (by simp) hx)) (by
      rintro k m v hk ⟨t, rfl, g⟩
      exact panic_ok ⟨_, rfl, good_sensitive g hk⟩)
  | .typeAny, _, _ => reads_bareT rfl fun k => ⟨_, rfl, good_typeAny⟩
  | .type t, h, hc => reads_arg1 rfl (reads_type t h fun c hx => hc c (mem_brackets (a := t.pieces) (by simp) hx)) (by
      rintro k m v hk ⟨t, rfl, g⟩
      exact panic_ok ⟨_, rfl, good_type g hk⟩)

theorem reads_types : ∀ (ps : List Pt), OkAll E ps → (∀ p ∈ ps, ∀ c ∈ p.pieces, c.Fine S E) → ∀ p ∈ ps, Reads E (tk S p.pieces) (TyOf E p)
  | p :: ps, h, hc, q, hq => by
    by_cases he : q = p
    · rw [he]; exact reads_type p h.1 (hc p List.mem_cons_self)
    · exact reads_types ps h.2 (fun p hp => hc p (List.mem_cons_of_mem _ hp)) q ((List.mem_cons.1 hq).resolve_left he)

theorem reads_fields : ∀ (fs : List (Str × Bool × Pt)), OkFields E fs → (∀ f ∈ fs, ∀ c ∈ f.2.2.pieces, c.Fine S E) →
    ∀ f ∈ fs, Reads E (tk S f.2.2.pieces) (TyOf E f.2.2)
  | (k, o, p) :: fs, h, hc, q, hq => by
    by_cases he : q = (k, o, p)
    · rw [he]; exact reads_type p h.1 (hc (k, o, p) List.mem_cons_self)
    · exact reads_fields fs h.2 (fun p hp => hc p (List.mem_cons_of_mem _ hp)) q ((List.mem_cons.1 hq).resolve_left he)
end

end Verif.Pcore
