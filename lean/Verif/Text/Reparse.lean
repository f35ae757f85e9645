import Verif.Text.Printer
/-!
# Parsing what was printed: the grammar
-/
set_option autoImplicit false
set_option linter.unusedVariables false
set_option linter.unusedSimpArgs false
namespace Verif.Text
open Verif.Value (Str Val F64)
open Verif.Types (Ty Oid maxInt)

/-- `sub` reads the tokens `ts` as `v`, if one that `F` allows follows. -/
def Parses {α : Type} (sub : Token → List Token → R α) (F : Nat → Prop) (ts : List Token) (v : α) : Prop :=
  ∀ rest, F (peekTok rest).type → sub (peekTok (ts ++ rest)) (ts ++ rest).tail = .ok (v, rest)

/-- What may follow an operand -/
def Fol (n : Nat) : Prop := n ∈ [0, 41, 125, 93, 44, 58, 63, 124, 38, 94]
def FolAll (n : Nat) : Prop := Fol n ∧ n ≠ 38
def FolOne (n : Nat) : Prop := FolAll n ∧ n ≠ 94
/-- What may follow an expression -/
def FolAny (n : Nat) : Prop := FolOne n ∧ n ≠ 124

theorem peekTok_cons (t : Token) (ts : List Token) : peekTok (t :: ts) = t := rfl

/-- Tokens with a separator between them -/
def joinToks (sep : Token) : List (List Token) → List Token
  | [] => []
  | [x] => x
  | x :: xs => x ++ [sep] ++ joinToks sep xs

theorem joinToks_cons (sep : Token) (x y : List Token) (xs : List (List Token)) :
    joinToks sep (x :: y :: xs) = x ++ [sep] ++ joinToks sep (y :: xs) := rfl

theorem pOp_single {sub : Sub} {op : Nat} {make : List Ty → Ty} {F : Nat → Prop} {ts : List Token} {v : PV}
    (h : Parses sub F ts v) : Parses (pOp sub op make) (fun n => F n ∧ n ≠ op) ts v := by
  intro rest hr
  unfold pOp
  rw [h rest hr.1]
  dsimp only
  rw [if_neg hr.2]

theorem opLoop_items {sub : Sub} {op : Nat} {F : Nat → Prop} (hop : F op) (items : List (List Token × PV)) (hne : items ≠ [])
    (h : ∀ x ∈ items, Parses sub F x.1 x.2) (tk : Token) (htk : tk.type = op) (rest : List Token)
    (hr : F (peekTok rest).type ∧ (peekTok rest).type ≠ op) : ∀ (n : Nat), items.length ≤ n →
    opLoop sub op n (tk :: joinToks tk (items.map (·.1)) ++ rest) = .ok (items.map (·.2), rest) := by
  induction items with
  | nil => exact absurd rfl hne
  | cons x items ih =>
    intro n hn
    cases n with
    | zero => simp at hn
    | succ n =>
      cases items with
      | nil =>
        have h1 := h x List.mem_cons_self rest hr.1
        rw [opLoop]
        simp only [List.map_cons, List.map_nil, joinToks, List.cons_append, List.tail_cons]
        rw [h1]
        dsimp only
        rw [if_pos hr.2]
      | cons y items =>
        have h1 := h x List.mem_cons_self (tk :: joinToks tk ((y :: items).map (·.1)) ++ rest) (by
          rw [List.cons_append, peekTok_cons, htk]; exact hop)
        have h2 := ih (by simp) (fun x hx => h x (List.mem_cons_of_mem _ hx)) n (by simp at hn ⊢; omega)
        rw [opLoop]
        have he : (tk :: joinToks tk ((x :: y :: items).map (·.1)) ++ rest) =
            tk :: (x.1 ++ (tk :: joinToks tk ((y :: items).map (·.1)) ++ rest)) := by
          simp [joinToks]
        rw [he, List.tail_cons, h1]
        dsimp only
        rw [if_neg (by rw [List.cons_append, peekTok_cons, htk]; simp), h2]
        rfl

theorem joinToks_length (sep : Token) : ∀ (xs : List (List Token)), xs.length ≤ (joinToks sep xs).length + 1
  | [] => by simp
  | [x] => by simp
  | x :: y :: xs => by
    have := joinToks_length sep (y :: xs)
    rw [joinToks_cons]
    simp only [List.length_append, List.length_cons, List.length_nil] at this ⊢
    omega

theorem pOp_many {sub : Sub} {op : Nat} {make : List Ty → Ty} {F : Nat → Prop} (hop : F op) {items : List (List Token × PV)}
    (hlen : 2 ≤ items.length) (h : ∀ x ∈ items, Parses sub F x.1 x.2) (tk : Token) (htk : tk.type = op) :
    Parses (pOp sub op make) (fun n => F n ∧ n ≠ op) (joinToks tk (items.map (·.1)))
      (.ty (make ((items.map (·.2)).map PV.asType))) := by
  match items, hlen, h with
  | x :: y :: items, _, h =>
    intro rest hr
    have h1 := h x List.mem_cons_self (tk :: joinToks tk ((y :: items).map (·.1)) ++ rest) (by
      rw [List.cons_append, peekTok_cons, htk]; exact hop)
    have he : (joinToks tk ((x :: y :: items).map (·.1)) ++ rest) =
        (x.1 ++ (tk :: joinToks tk ((y :: items).map (·.1)) ++ rest)) := by
      simp [joinToks]
    have h2 := opLoop_items hop (y :: items) (by simp) (fun x hx => h x (List.mem_cons_of_mem _ hx)) tk htk rest hr
      ((tk :: joinToks tk ((y :: items).map (·.1)) ++ rest).length + 1) (by
        have := joinToks_length tk ((y :: items).map (·.1))
        simp only [List.length_map, List.length_append, List.length_cons] at this ⊢
        omega)
    unfold pOp
    rw [he, h1]
    dsimp only
    rw [if_pos (by rw [List.cons_append, peekTok_cons, htk]), h2]
    rfl

theorem pUnary_plain {E : PEnv} {te : Sub} {F : Nat → Prop} {t : Token} {ts : List Token} {v : PV}
    (h : Parses te F (t :: ts) v) (h1 : t.type ≠ 33) (h2 : t.type ≠ 126) : Parses (pUnary E te) F (t :: ts) v := by
  intro rest hr
  have h := h rest hr
  rw [List.cons_append, peekTok_cons, List.tail_cons] at h ⊢
  unfold pUnary
  have e1 : (t.type == 33) = false := by simp [h1]
  have e2 : (t.type == 126) = false := by simp [h2]
  simp only [e1, e2, Bool.false_eq_true, if_false, h]

theorem pUnary_not {E : PEnv} {te : Sub} {F : Nat → Prop} {t : Token} {ts : List Token} {v : PV} {tk : Token} (hk : tk.type = 33)
    (h : Parses te F (t :: ts) v) (h2 : t.type ≠ 126) : Parses (pUnary E te) F (tk :: t :: ts) (.ty (Types.notType v.asType)) := by
  intro rest hr
  have h := h rest hr
  simp only [List.cons_append, peekTok_cons, List.tail_cons] at h ⊢
  unfold pUnary
  have e1 : (tk.type == 33) = true := by simp [hk]
  have e2 : (t.type == 126) = false := by simp [h2]
  simp only [e1, e2, Bool.false_eq_true, if_false, if_true, h, peekTok_cons, List.tail_cons]

theorem pUnary_ci {E : PEnv} {te : Sub} {F : Nat → Prop} {ts : List Token} {s : Str} {tk : Token} (hk : tk.type = 126)
    (h : Parses te F ts (.val (.str s))) : Parses (pUnary E te) F (tk :: ts) (.ty (.ciStr (E.lower s))) := by
  intro rest hr
  have h := h rest hr
  simp only [List.cons_append, peekTok_cons, List.tail_cons] at h ⊢
  unfold pUnary
  have e1 : (tk.type == 33) = false := by simp [hk]
  have e2 : (tk.type == 126) = true := by simp [hk]
  simp only [e1, e2, Bool.false_eq_true, if_false, if_true, h]

theorem pUnary_notCi {E : PEnv} {te : Sub} {F : Nat → Prop} {ts : List Token} {s : Str} {tn tk : Token} (hn : tn.type = 33)
    (hk : tk.type = 126) (h : Parses te F ts (.val (.str s))) :
    Parses (pUnary E te) F (tn :: tk :: ts) (.ty (.not (.ciStr (E.lower s)))) := by
  intro rest hr
  have h := h rest hr
  simp only [List.cons_append, peekTok_cons, List.tail_cons] at h ⊢
  unfold pUnary
  have e1 : (tn.type == 33) = true := by simp [hn]
  have e2 : (tk.type == 126) = true := by simp [hk]
  simp only [e1, e2, Bool.false_eq_true, if_false, if_true, h, peekTok_cons, List.tail_cons]
  rfl

theorem pAllOf_of {E : PEnv} {te : Sub} {ts : List Token} {v : PV} (h : Parses (pUnary E te) Fol ts v) :
    Parses (pAllOf E te) FolAll ts v := pOp_single h
theorem pOneOf_of {E : PEnv} {te : Sub} {ts : List Token} {v : PV} (h : Parses (pAllOf E te) FolAll ts v) :
    Parses (pOneOf E te) FolOne ts v := pOp_single h
theorem pAnyOf_of {E : PEnv} {te : Sub} {ts : List Token} {v : PV} (h : Parses (pOneOf E te) FolOne ts v) :
    Parses (pAnyOf E te) FolAny ts v := pOp_single h

/-! ## Lists -/

/-- An element that is not an entry -/
theorem pElement_one {E : PEnv} {te : Sub} {t : Token} {ts : List Token} {v : PV} (h : Parses (pAnyOf E te) FolAny (t :: ts) v)
    (hn : ∀ x, ts.head? = some x → x.type ≠ 58 ∧ x.type ≠ 63) {rest : List Token}
    (hr : (peekTok rest).type = 44 ∨ (peekTok rest).type = 125 ∨ (peekTok rest).type = 93) {ee : Nat} (hee : ee ≠ 2) :
    pElement E te t ee (ts ++ rest) = .ok ((some (.one v), 0), rest) := by
  have hf : FolAny (peekTok rest).type := by
    rcases hr with h | h | h <;> rw [h] <;> simp [FolAny, FolOne, FolAll, Fol]
  have h := h rest hf
  have hp : (peekTok (ts ++ rest)).type ≠ 58 ∧ (peekTok (ts ++ rest)).type ≠ 63 := by
    cases ts with
    | nil => rw [List.nil_append]; omega
    | cons a ts => exact hn a rfl
  have hq : (peekTok rest).type ≠ 58 ∧ (peekTok rest).type ≠ 63 := by omega
  rw [List.cons_append, peekTok_cons, List.tail_cons] at h
  unfold pElement
  have e1 : ((peekTok (ts ++ rest)).type == 58) = false := by simp [hp.1]
  have e2 : ((peekTok (ts ++ rest)).type == 63) = false := by simp [hp.2]
  have e3 : ((peekTok rest).type == 63) = false := by simp [hq.2]
  simp only [e1, e2, Bool.and_false, Bool.or_false, Bool.false_and, Bool.false_eq_true, if_false, h, e3, hq.1, hee]

/-- A token list that an element may have: it does not begin with an ellipsis, and its first token is not followed by `:` or `?` -/
def ElemOk (ts : List Token) : Prop :=
  ∃ t ts', ts = t :: ts' ∧ t.type ≠ tDotdotdot ∧ t.type ≠ 125 ∧ t.type ≠ 93 ∧ ∀ x, ts'.head? = some x → x.type ≠ 58 ∧ x.type ≠ 63

/-- The elements of a tuple, or of an array -/
theorem listLoop_items {E : PEnv} {te : Sub} (close : Token) (hc : close.type = 125) (comma : Token) (hcm : comma.type = 44)
    (rest : List Token) : ∀ (items : List (List Token × PV)), items ≠ [] →
    (∀ x ∈ items, Parses (pAnyOf E te) FolAny x.1 x.2 ∧ ElemOk x.1) → ∀ (n ee : Nat) (acc : List Elem), items.length ≤ n → ee ≠ 2 →
    listLoop E te 125 n false ee acc (joinToks comma (items.map (·.1)) ++ (close :: rest)) =
      .ok ((false, 0, acc ++ items.map fun x => .one x.2), rest)
  | [], hne, _, _, _, _, _, _ => absurd rfl hne
  | x :: items, _, h, n, ee, acc, hn, hee => by
    obtain ⟨hx, t, ts, htx, hd, h125, h93, hhd⟩ := h x List.mem_cons_self
    cases n with
    | zero => simp at hn
    | succ n =>
      rw [htx] at hx
      cases items with
      | nil =>
        have h1 := pElement_one hx hhd (rest := close :: rest) (Or.inr (Or.inl (by rw [peekTok_cons, hc]))) hee
        rw [listLoop.eq_def]
        simp only [List.map_cons, List.map_nil, joinToks, htx, List.cons_append, peekTok_cons, List.tail_cons]
        rw [if_neg hd, if_neg h125, h1]
        simp only [peekTok_cons, List.tail_cons, hc, if_true, Option.toList]
      | cons y items =>
        have he : (joinToks comma ((x :: y :: items).map (·.1)) ++ (close :: rest)) =
            t :: (ts ++ (comma :: (joinToks comma ((y :: items).map (·.1)) ++ (close :: rest)))) := by
          simp [joinToks, htx]
        have h1 := pElement_one hx hhd (rest := comma :: (joinToks comma ((y :: items).map (·.1)) ++ (close :: rest)))
          (Or.inl (by rw [peekTok_cons, hcm])) hee
        have ih := listLoop_items close hc comma hcm rest (y :: items) (by simp) (fun x hx => h x (List.mem_cons_of_mem _ hx)) n 0
          (acc ++ [.one x.2]) (by simp at hn ⊢; omega) (by omega)
        rw [listLoop.eq_def, he]
        simp only [peekTok_cons, List.tail_cons]
        rw [if_neg hd]
        simp only [h125, if_false, h1, peekTok_cons, List.tail_cons, hcm, Option.toList]
        rw [if_neg (by omega), if_neg (by omega), ih]
        simp

/-- The elements of a variadic tuple -/
theorem listLoop_variadic {E : PEnv} {te : Sub} (close : Token) (hc : close.type = 125) (comma : Token) (hcm : comma.type = 44)
    (dots : Token) (hdots : dots.type = tDotdotdot)
    (rest : List Token) (last : List Token × PV) (hlast : Parses (pAnyOf E te) FolAny last.1 last.2)
    (hle : ∃ t ts, last.1 = t :: ts ∧ t.type ≠ 125) {et : Ty} (het : Types.newArrayType O last.2.asType 0 maxInt = some et) :
    ∀ (items : List (List Token × PV)),
    (∀ x ∈ items, Parses (pAnyOf E te) FolAny x.1 x.2 ∧ ElemOk x.1) → ∀ (n ee : Nat) (acc : List Elem), items.length + 1 ≤ n → ee ≠ 2 →
    listLoop E te 125 n false ee acc (joinToks comma (items.map (·.1) ++ [dots :: last.1]) ++ (close :: rest)) =
      .ok ((true, 0, acc ++ (items.map fun x => .one x.2) ++ [.one (.ty et)]), rest)
  | [], _, n, ee, acc, hn, hee => by
    cases n with
    | zero => simp at hn
    | succ n =>
      obtain ⟨t, ts, hl, ht⟩ := hle
      have h1 := hlast (close :: rest) (by rw [peekTok_cons, hc]; simp [FolAny, FolOne, FolAll, Fol])
      rw [hl] at h1
      rw [listLoop.eq_def]
      simp only [List.map_nil, List.nil_append, joinToks, hl, List.cons_append, peekTok_cons, List.tail_cons] at h1 ⊢
      rw [if_pos hdots, if_neg (by intro h; exact ht h.1), if_neg hee, h1]
      dsimp only
      rw [het]
      simp only [peekTok_cons, List.tail_cons, hc, if_true, Option.toList, List.append_nil]
  | x :: items, h, n, ee, acc, hn, hee => by
    obtain ⟨hx, t, ts, htx, hd, h125, h93, hhd⟩ := h x List.mem_cons_self
    cases n with
    | zero => simp at hn
    | succ n =>
      rw [htx] at hx
      have hj : joinToks comma ((x :: items).map (·.1) ++ [dots :: last.1]) =
          x.1 ++ [comma] ++ joinToks comma (items.map (·.1) ++ [dots :: last.1]) := by
        cases items <;> rfl
      have he : (joinToks comma ((x :: items).map (·.1) ++ [dots :: last.1]) ++ (close :: rest)) =
          t :: (ts ++ (comma :: (joinToks comma (items.map (·.1) ++ [dots :: last.1]) ++ (close :: rest)))) := by
        rw [hj]; simp [htx]
      have h1 := pElement_one hx hhd (rest := comma :: (joinToks comma (items.map (·.1) ++ [dots :: last.1]) ++ (close :: rest)))
        (Or.inl (by rw [peekTok_cons, hcm])) hee
      have ih := listLoop_variadic close hc comma hcm dots hdots rest last hlast hle het items
        (fun x hx => h x (List.mem_cons_of_mem _ hx)) n 0
        (acc ++ [.one x.2]) (by simp at hn ⊢; omega) (by omega)
      rw [listLoop.eq_def, he]
      simp only [peekTok_cons, List.tail_cons]
      rw [if_neg hd]
      simp only [h125, if_false, h1, peekTok_cons, List.tail_cons, hcm, Option.toList]
      rw [if_neg (by omega), if_neg (by omega), ih]
      simp

/-- A token for a character -/
def chTok (c : Nat) : Token := ⟨[], c⟩

/-- An entry: its key, whether it is optional, and its value -/
structure FieldItem where
  kt : List Token
  kv : PV
  opt : Bool
  vt : List Token
  vv : PV

def FieldItem.toks (f : FieldItem) : List Token := f.kt ++ (if f.opt then [chTok 63] else []) ++ chTok 58 :: f.vt

/-- The key of an entry is a string, or a literal that is not optional, or a bracketed expression. -/
def KeyOk (E : PEnv) (te : Sub) (f : FieldItem) : Prop :=
  (∃ s, f.kt = [⟨s, tString⟩] ∧ f.kv = .val (.str s)) ∨
  (Parses (pAnyOf E te) FolAny f.kt f.kv ∧ ∃ t ts, f.kt = t :: ts ∧ t.type ≠ tIdentifier ∧ t.type ≠ tDotdotdot ∧ t.type ≠ 125 ∧
    (ts = [] → f.opt = false) ∧ ∀ x, ts.head? = some x → x.type ≠ 58 ∧ x.type ≠ 63)

theorem pAnyOf_str {E : PEnv} {te : Sub} (hte : ∀ s, Parses te Fol [⟨s, tString⟩] (.val (.str s))) (s : Str) :
    Parses (pAnyOf E te) FolAny [⟨s, tString⟩] (.val (.str s)) :=
  pAnyOf_of (pOneOf_of (pAllOf_of (pUnary_plain (hte s) (show tString ≠ 33 by decide) (show tString ≠ 126 by decide))))

theorem pElement_entry {E : PEnv} {te : Sub} (hte : ∀ s, Parses te Fol [⟨s, tString⟩] (.val (.str s))) {f : FieldItem}
    (hk : KeyOk E te f) (hv : Parses (pAnyOf E te) FolAny f.vt f.vv) {rest : List Token}
    (hr : (peekTok rest).type = 44 ∨ (peekTok rest).type = 125) {ee : Nat} (hee : ee ≠ 0) :
    pElement E te (peekTok f.toks) ee (f.toks.tail ++ rest) = .ok ((some (.entry f.kv f.opt f.vv), 2), rest) := by
  have hf : FolAny (peekTok rest).type := by
    rcases hr with h | h <;> rw [h] <;> simp [FolAny, FolOne, FolAll, Fol]
  have hv := hv rest hf
  have e0 : (ee == 0) = false := by simp [hee]
  have main : ∀ (t : Token) (ts : List Token), f.kt = t :: ts →
      (if ((t.type == tIdentifier && (peekTok (f.toks.tail ++ rest)).type == 58) || (peekTok (f.toks.tail ++ rest)).type == 63) = true
        then .ok (.val (.str t.value), f.toks.tail ++ rest) else pAnyOf E te t (f.toks.tail ++ rest) : R PV) =
        .ok (f.kv, (if f.opt then [chTok 63] else []) ++ chTok 58 :: f.vt ++ rest) → 
      pElement E te (peekTok f.toks) ee (f.toks.tail ++ rest) = .ok ((some (.entry f.kv f.opt f.vv), 2), rest) := by
    intro t ts hkt hm
    have hp : peekTok f.toks = t := by unfold FieldItem.toks; rw [hkt]; rfl
    rw [hp]
    unfold pElement
    simp only [e0, Bool.and_false, Bool.false_eq_true, if_false]
    rw [hm]
    dsimp only
    cases ho : f.opt
    · simp only [List.nil_append, List.cons_append, peekTok_cons, chTok, Bool.false_eq_true, if_false, ho]
      simp only [show ((58 : Nat) == 63) = false from rfl, Bool.false_eq_true, if_false, peekTok_cons, if_true, hee, List.tail_cons, hv]
    · simp only [List.nil_append, List.cons_append, peekTok_cons, chTok, if_true, ho]
      simp only [show ((63 : Nat) == 63) = true from rfl, if_true, peekTok_cons, List.tail_cons, if_false, hee, hv]
  have htl : ∀ (t : Token) (ts : List Token), f.kt = t :: ts →
      f.toks.tail ++ rest = ts ++ ((if f.opt then [chTok 63] else []) ++ chTok 58 :: f.vt ++ rest) := by
    intro t ts hkt; unfold FieldItem.toks; rw [hkt]; simp
  have hfol : FolAny (peekTok ((if f.opt then [chTok 63] else []) ++ chTok 58 :: f.vt ++ rest)).type := by
    cases f.opt <;> simp [FolAny, FolOne, FolAll, Fol, peekTok, chTok]
  rcases hk with ⟨s, h1, h2⟩ | ⟨h1, t, ts, hkt, h2, h3, h4, h5, h6⟩
  · refine main _ _ h1 ?_
    rw [htl _ _ h1]
    simp only [show ((tString : Nat) == tIdentifier) = false from rfl, Bool.false_and, Bool.false_or, h2]
    have := pAnyOf_str hte s (E := E) _ hfol
    rw [List.cons_append, peekTok_cons, List.tail_cons] at this
    rw [this]
    exact ite_self _
  · refine main _ _ hkt ?_
    rw [htl _ _ hkt]
    have e1 : (t.type == tIdentifier) = false := by simp [h2]
    have e2 : ((peekTok (ts ++ ((if f.opt then [chTok 63] else []) ++ chTok 58 :: f.vt ++ rest))).type == 63) = false := by
      cases ts with
      | nil => rw [h5 rfl]; rfl
      | cons a ts => simpa [peekTok] using (h6 a rfl).2
    rw [e1, e2, if_neg (by simp)]
    have := h1 _ hfol
    rw [hkt, List.cons_append, peekTok_cons, List.tail_cons] at this
    exact this

theorem FieldItem.toks_cons {E : PEnv} {te : Sub} {f : FieldItem} (hk : KeyOk E te f) :
    ∃ t ts, f.toks = t :: ts ∧ t.type ≠ tDotdotdot ∧ t.type ≠ 125 := by
  unfold FieldItem.toks
  rcases hk with ⟨s, h1, h2⟩ | ⟨h1, t, ts, hkt, h2, h3, h4, h5, h6⟩
  · rw [h1]; exact ⟨_, _, rfl, show tString ≠ tDotdotdot by decide, show tString ≠ 125 by decide⟩
  · rw [hkt]; exact ⟨_, _, rfl, h3, h4⟩

def entryOf (f : FieldItem) : Elem := .entry f.kv f.opt f.vv

/-- The entries of a struct type, or of a map -/
theorem listLoop_fields {E : PEnv} {te : Sub} (hte : ∀ s, Parses te Fol [⟨s, tString⟩] (.val (.str s)))
    (rest : List Token) : ∀ (items : List FieldItem), items ≠ [] →
    (∀ x ∈ items, KeyOk E te x ∧ Parses (pAnyOf E te) FolAny x.vt x.vv) → ∀ (n ee : Nat) (acc : List Elem), items.length ≤ n → ee ≠ 0 →
    listLoop E te 125 n false ee acc (joinToks (chTok 44) (items.map (·.toks)) ++ (chTok 125 :: rest)) =
      .ok ((false, 2, acc ++ items.map entryOf), rest)
  | [], hne, _, _, _, _, _, _ => absurd rfl hne
  | x :: items, _, h, n, ee, acc, hn, hee => by
    obtain ⟨hk, hv⟩ := h x List.mem_cons_self
    obtain ⟨t, ts, htx, hd, h125⟩ := FieldItem.toks_cons hk
    cases n with
    | zero => simp at hn
    | succ n =>
      cases items with
      | nil =>
        have h1 := pElement_entry hte hk hv (rest := chTok 125 :: rest) (Or.inr rfl) hee
        rw [htx, peekTok_cons, List.tail_cons] at h1
        rw [listLoop.eq_def]
        simp only [List.map_cons, List.map_nil, joinToks, htx, List.cons_append, peekTok_cons, List.tail_cons]
        rw [if_neg hd]
        simp only [h125, if_false, h1, peekTok_cons, List.tail_cons, Option.toList, entryOf]
        exact if_pos rfl
      | cons y items =>
        have he : (joinToks (chTok 44) ((x :: y :: items).map (·.toks)) ++ (chTok 125 :: rest)) =
            t :: (ts ++ (chTok 44 :: (joinToks (chTok 44) ((y :: items).map (·.toks)) ++ (chTok 125 :: rest)))) := by
          simp [joinToks, htx]
        have h1 := pElement_entry hte hk hv (rest := chTok 44 :: (joinToks (chTok 44) ((y :: items).map (·.toks)) ++ (chTok 125 :: rest)))
          (Or.inl rfl) hee
        rw [htx, peekTok_cons, List.tail_cons] at h1
        have ih := listLoop_fields hte rest (y :: items) (by simp) (fun x hx => h x (List.mem_cons_of_mem _ hx)) n 2
          (acc ++ [entryOf x]) (by simp at hn ⊢; omega) (by omega)
        rw [listLoop.eq_def, he]
        simp only [peekTok_cons, List.tail_cons]
        rw [if_neg hd]
        simp only [h125, if_false, h1, peekTok_cons, List.tail_cons, Option.toList]
        refine (if_neg (show ¬ (chTok 44).type = 125 by decide)).trans ((if_neg (show ¬ ((chTok 44).type ≠ 44) by simp [chTok])).trans ?_)
        unfold entryOf at ih
        rw [ih]
        simp [entryOf]

/-- The entries of a struct type that allows others -/
theorem listLoop_additional {E : PEnv} {te : Sub} (hte : ∀ s, Parses te Fol [⟨s, tString⟩] (.val (.str s)))
    (dots : Token) (hdots : dots.type = tDotdotdot) (rest : List Token) : ∀ (items : List FieldItem),
    (∀ x ∈ items, KeyOk E te x ∧ Parses (pAnyOf E te) FolAny x.vt x.vv) → ∀ (n ee : Nat) (acc : List Elem), items.length + 1 ≤ n →
    ee ≠ 0 →
    listLoop E te 125 n false ee acc (joinToks (chTok 44) (items.map (·.toks) ++ [[dots]]) ++ (chTok 125 :: rest)) =
      .ok ((true, if items = [] then ee else 2, acc ++ items.map entryOf), rest)
  | [], _, n, ee, acc, hn, hee => by
    cases n with
    | zero => simp at hn
    | succ n =>
      rw [listLoop.eq_def]
      simp only [List.map_nil, List.nil_append, joinToks, List.cons_append, peekTok_cons, List.tail_cons]
      rw [if_pos hdots, if_pos ⟨rfl, hee⟩]
      simp
  | x :: items, h, n, ee, acc, hn, hee => by
    obtain ⟨hk, hv⟩ := h x List.mem_cons_self
    obtain ⟨t, ts, htx, hd, h125⟩ := FieldItem.toks_cons hk
    cases n with
    | zero => simp at hn
    | succ n =>
      have hj : joinToks (chTok 44) ((x :: items).map (·.toks) ++ [[dots]]) =
          x.toks ++ [chTok 44] ++ joinToks (chTok 44) (items.map (·.toks) ++ [[dots]]) := by
        cases items <;> rfl
      have he : (joinToks (chTok 44) ((x :: items).map (·.toks) ++ [[dots]]) ++ (chTok 125 :: rest)) =
          t :: (ts ++ (chTok 44 :: (joinToks (chTok 44) (items.map (·.toks) ++ [[dots]]) ++ (chTok 125 :: rest)))) := by
        rw [hj]; simp [htx]
      have h1 := pElement_entry hte hk hv
        (rest := chTok 44 :: (joinToks (chTok 44) (items.map (·.toks) ++ [[dots]]) ++ (chTok 125 :: rest))) (Or.inl rfl) hee
      rw [htx, peekTok_cons, List.tail_cons] at h1
      have ih := listLoop_additional hte dots hdots rest items (fun x hx => h x (List.mem_cons_of_mem _ hx)) n 2
        (acc ++ [entryOf x]) (by simp at hn ⊢; omega) (by omega)
      rw [listLoop.eq_def, he]
      simp only [peekTok_cons, List.tail_cons]
      rw [if_neg hd]
      simp only [h125, if_false, h1, peekTok_cons, List.tail_cons, Option.toList]
      refine (if_neg (show ¬ (chTok 44).type = 125 by decide)).trans ((if_neg (show ¬ ((chTok 44).type ≠ 44) by simp [chTok])).trans ?_)
      unfold entryOf at ih
      rw [ih]
      simp [entryOf]

/-- Parameters -/
theorem paramsLoop_items {E : PEnv} {te : Sub} (rest : List Token) : ∀ (items : List (List Token × PV)),
    (∀ x ∈ items, Parses (pAnyOf E te) FolAny x.1 x.2 ∧ ∃ t ts', x.1 = t :: ts' ∧ t.type ≠ 93 ∧
      ∀ x, ts'.head? = some x → x.type ≠ 58 ∧ x.type ≠ 63) → ∀ (n : Nat) (acc : List Elem), items.length + 1 ≤ n →
    paramsLoop E te n acc (joinToks (chTok 44) (items.map (·.1)) ++ (chTok 93 :: rest)) =
      .ok (acc ++ items.map fun x => .one x.2, rest)
  | [], _, n, acc, hn => by
    cases n with
    | zero => simp at hn
    | succ n =>
      rw [paramsLoop.eq_def]
      simp [joinToks, peekTok, chTok]
  | x :: items, h, n, acc, hn => by
    obtain ⟨hx, t, ts, htx, h93, hhd⟩ := h x List.mem_cons_self
    cases n with
    | zero => simp at hn
    | succ n =>
      rw [htx] at hx
      cases items with
      | nil =>
        have h1 := pElement_one hx hhd (rest := chTok 93 :: rest) (Or.inr (Or.inr rfl)) (ee := 0) (by omega)
        rw [paramsLoop.eq_def]
        simp only [List.map_cons, List.map_nil, joinToks, htx, List.cons_append, peekTok_cons, List.tail_cons]
        simp only [h93, if_false, h1, peekTok_cons, List.tail_cons, Option.toList]
        exact if_pos rfl
      | cons y items =>
        have he : (joinToks (chTok 44) ((x :: y :: items).map (·.1)) ++ (chTok 93 :: rest)) =
            t :: (ts ++ (chTok 44 :: (joinToks (chTok 44) ((y :: items).map (·.1)) ++ (chTok 93 :: rest)))) := by
          simp [joinToks, htx]
        have h1 := pElement_one hx hhd (rest := chTok 44 :: (joinToks (chTok 44) ((y :: items).map (·.1)) ++ (chTok 93 :: rest)))
          (Or.inl rfl) (ee := 0) (by omega)
        have ih := paramsLoop_items rest (y :: items) (fun x hx => h x (List.mem_cons_of_mem _ hx)) n
          (acc ++ [.one x.2]) (by simp at hn ⊢; omega)
        rw [paramsLoop.eq_def, he]
        simp only [peekTok_cons, List.tail_cons]
        simp only [h93, if_false, h1, peekTok_cons, List.tail_cons, Option.toList]
        refine (if_neg (show ¬ (chTok 44).type = 93 by decide)).trans ((if_neg (show ¬ ((chTok 44).type ≠ 44) by simp [chTok])).trans ?_)
        rw [ih]
        simp

theorem elemVals_ones : ∀ (vs : List PV), elemVals (vs.map .one) = vs
  | [] => rfl
  | v :: vs => by rw [List.map_cons, elemVals, elemVals_ones vs]

theorem elemTypes_ones : ∀ (vs : List PV), elemTypes (vs.map .one) = some (vs.map PV.asType)
  | [] => rfl
  | v :: vs => by rw [List.map_cons, elemTypes, elemTypes_ones vs]; rfl

end Verif.Text
