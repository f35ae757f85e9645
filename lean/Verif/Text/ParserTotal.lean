import Verif.Text.Parser
/-!
# The parser needs no more fuel than there are tokens
-/
set_option autoImplicit false
set_option linter.unusedVariables false
namespace Verif.Text
open Verif.Value (Str Val F64)
open Verif.Types (Ty Oid maxInt)

/-- The result is not for lack of fuel, and at most `k` tokens are left. -/
def Fine {α : Type} (k : Nat) : R α → Prop
  | .error .fuel => False
  | .error _ => True
  | .ok (_, ts) => ts.length ≤ k

theorem Fine.mono {α : Type} {k k' : Nat} {r : R α} (h : Fine k r) (hk : k ≤ k') : Fine k' r := by
  cases r with
  | error e => cases e <;> first | exact h | trivial
  | ok x => exact Nat.le_trans h hk

/-- The number of tokens, that at the end not counted -/
def size (t : Token) (ts : List Token) : Nat := ts.length + if t.type = tEnd then 0 else 1

theorem size_le (t : Token) (ts : List Token) : ts.length ≤ size t ts := by unfold size; omega

theorem size_peek (ts : List Token) : size (peekTok ts) ts.tail ≤ ts.length := by
  cases ts with
  | nil => exact Nat.le.refl
  | cons t ts => unfold size peekTok; simp only [List.tail_cons, List.length_cons]; split <;> omega

theorem size_ne {t : Token} {ts : List Token} (h : t.type ≠ tEnd) : size t ts = ts.length + 1 := by unfold size; rw [if_neg h]

/-- `sub` is fine on less than `k` tokens. -/
def FineSub (k : Nat) (sub : Sub) : Prop := ∀ t ts, size t ts < k → Fine ts.length (sub t ts)

theorem Fine.err {α : Type} {k : Nat} {e : PErr} (h : e ≠ .fuel) : Fine k (.error e : R α) := by
  unfold Fine; split <;> simp_all

theorem Fine.of_err {α β : Type} {k : Nat} {e : PErr} (h : Fine k (.error e : R α)) : Fine k (.error e : R β) := by
  cases e <;> first | exact h | trivial

theorem Fine.map {α β : Type} {k : Nat} {r : R α} (h : Fine k r) (f : α → β) : Fine k (r.map fun x => (f x.1, x.2)) := by
  cases r with
  | error e => exact h.of_err
  | ok x => exact h

theorem Fine.ite {α : Type} {k : Nat} {c : Prop} [Decidable c] {a b : R α} (ha : Fine k a) (hb : Fine k b) : Fine k (if c then a else b) := by
  split <;> assumption

theorem orPanic_fine {α β : Type} (o : Option α) (f : α → β) (ts : List Token) :
    Fine ts.length ((orPanic o).map fun x => (f x, ts)) := by
  cases o with
  | none => exact Fine.err (by intro h; cases h)
  | some a => exact Nat.le.refl

theorem peek_ne_nil {ts : List Token} {op : Nat} (h : (peekTok ts).type = op) (hop : op ≠ 0) : 0 < ts.length := by
  cases ts with
  | nil => exact absurd h.symm hop
  | cons => simp

theorem tail_le (ts : List Token) : ts.tail.length ≤ ts.length := by simp

theorem opLoop_fine {k : Nat} {sub : Sub} (hs : FineSub k sub) {op : Nat} (hop : op ≠ 0) : ∀ (n : Nat) (ts : List Token),
    ts.length ≤ n → ts.length ≤ k → (peekTok ts).type = op → Fine ts.length (opLoop sub op n ts)
  | 0, ts, h, _, hp => by have := peek_ne_nil hp hop; omega
  | n + 1, ts, h, hk, hp => by
    rw [opLoop]
    have hpos := peek_ne_nil hp hop
    have hl : ts.tail.tail.length ≤ ts.length - 1 := by simp
    have hsz := size_peek ts.tail
    rw [List.length_tail] at hsz
    have h1 := hs (peekTok ts.tail) ts.tail.tail (by omega)
    cases hr : sub (peekTok ts.tail) ts.tail.tail with
    | error e => rw [hr] at h1; exact (h1.of_err.mono (by omega))
    | ok x =>
      obtain ⟨v, ts'⟩ := x
      rw [hr] at h1
      have h1 : ts'.length ≤ _ := h1
      dsimp only
      split
      · exact (show ts'.length ≤ ts.length by omega)
      · rename_i hp'
        have hp' : (peekTok ts').type = op := Decidable.byContradiction hp'
        have := opLoop_fine hs hop n ts' (by omega) (by omega) hp'
        exact (this.map (v :: ·)).mono (by omega)

theorem pOp_fine {k : Nat} {sub : Sub} (hs : FineSub k sub) {op : Nat} (hop : op ≠ 0) (make : List Ty → Ty) :
    FineSub k (pOp sub op make) := by
  intro t ts hk
  unfold pOp
  have hsl := size_le t ts
  have h1 := hs t ts hk
  cases hr : sub t ts with
  | error e => rw [hr] at h1; exact h1.of_err
  | ok x =>
    obtain ⟨v, ts'⟩ := x
    rw [hr] at h1
    have h1 : ts'.length ≤ _ := h1
    dsimp only
    split
    · rename_i hp
      have := opLoop_fine hs hop (ts'.length + 1) ts' (by omega) (by omega) hp
      exact (this.map fun x => PV.ty (make ((v :: x).map PV.asType))).mono (by omega)
    · exact h1

theorem pUnary_fine {k : Nat} (E : PEnv) {te : Sub} (hs : FineSub k te) : FineSub k (pUnary E te) := by
  have sub : ∀ t ts, size t ts < k → ∀ m, ts.length ≤ m → ∀ (f : PV → Except PErr PV), (∀ v, f v ≠ .error .fuel) →
      Fine m (match te t ts with
        | .error e => .error e
        | .ok (v, ts) => match f v with
          | .error e => .error e
          | .ok v => .ok (v, ts) : R PV) := by
    intro t ts hk m hm f hf
    have h1 := hs t ts hk
    cases hr : te t ts with
    | error e => rw [hr] at h1; exact h1.of_err.mono hm
    | ok x =>
      obtain ⟨v, ts'⟩ := x
      rw [hr] at h1
      have h1 : ts'.length ≤ _ := h1
      dsimp only
      cases hf' : f v with
      | error e => exact Fine.err fun he => hf v (by rw [hf', he])
      | ok v => exact (show ts'.length ≤ m by omega)
  intro t ts hk
  unfold pUnary
  have ht : ts.tail.length ≤ ts.length := tail_le ts
  have htt : ts.tail.tail.length ≤ ts.tail.length := tail_le ts.tail
  -- the cases of the two prefix operators
  have fin : ∀ (neg ci : Bool) (t : Token) (ts' : List Token), size t ts' < k → ts'.length ≤ ts.length → Fine ts.length
      (match te t ts' with
        | .error e => .error e
        | .ok (v, ts) => match (if ci then
              match v with
              | .val (.str s) => .ok (.ty (.ciStr (E.lower s)))
              | _ => .error (.syntax t)
            else .ok v : Except PErr PV) with
          | .error e => .error e
          | .ok v => .ok (if neg then .ty (Types.notType v.asType) else v, ts) : R PV) := by
    intro neg ci t ts' hsz hl
    have := sub t ts' hsz ts.length hl (fun v => ((if ci then
              match v with
              | .val (.str s) => .ok (.ty (.ciStr (E.lower s)))
              | _ => .error (.syntax t)
            else .ok v : Except PErr PV)).map fun v => if neg then .ty (Types.notType v.asType) else v) (by
        intro v
        cases ci with
        | false => intro h; cases h
        | true =>
          cases v with
          | val v => cases v <;> (intro h; cases h)
          | ty t => intro h; cases h)
    have e : ∀ v : PV, ∀ ts'' : List Token, (match (((if ci then
              match v with
              | .val (.str s) => .ok (.ty (.ciStr (E.lower s)))
              | _ => .error (.syntax t)
            else .ok v : Except PErr PV)).map fun v => if neg then PV.ty (Types.notType v.asType) else v) with
          | .error e => .error e
          | .ok v => .ok (v, ts'') : R PV) = (match (if ci then
              match v with
              | .val (.str s) => .ok (.ty (.ciStr (E.lower s)))
              | _ => .error (.syntax t)
            else .ok v : Except PErr PV) with
          | .error e => .error e
          | .ok v => .ok (if neg then .ty (Types.notType v.asType) else v, ts'')) := by
      intro v ts''
      generalize (if ci then
              match v with
              | .val (.str s) => .ok (.ty (.ciStr (E.lower s)))
              | _ => .error (.syntax t)
            else .ok v : Except PErr PV) = x
      cases x <;> rfl
    cases hr : te t ts' with
    | error e' => rw [hr] at this; exact this
    | ok x =>
      rw [hr] at this
      dsimp only at this ⊢
      rw [e] at this
      exact this
  have hsl := size_le t ts
  have h1 := size_peek ts
  have h2 := size_peek ts.tail
  cases hn : (t.type == 33) <;> simp only [Bool.false_eq_true, if_false, if_true]
  · cases hc : (t.type == 126) <;> simp only [Bool.false_eq_true, if_false, if_true]
    · exact fin false false t ts hk (by omega)
    · exact fin false true (peekTok ts) ts.tail (by omega) (by omega)
  · cases hc : ((peekTok ts).type == 126) <;> simp only [Bool.false_eq_true, if_false, if_true]
    · exact fin true false (peekTok ts) ts.tail (by omega) (by omega)
    · exact fin true true (peekTok ts.tail) ts.tail.tail (by omega) (by omega)

theorem pAnyOf_fine {k : Nat} (E : PEnv) {te : Sub} (hs : FineSub k te) : FineSub k (pAnyOf E te) :=
  pOp_fine (pOp_fine (pOp_fine (pUnary_fine E hs) (by decide) _) (by decide) _) (by decide) _

theorem pElement_fine {k : Nat} (E : PEnv) {te : Sub} (hs : FineSub k te) (t : Token) (x : Nat) (ts : List Token) (hk : size t ts < k) :
    Fine ts.length (pElement E te t x ts) := by
  unfold pElement
  have hsl := size_le t ts
  dsimp only
  split
  · exact Fine.err (by intro h; cases h)
  · have hkey : Fine ts.length (if (t.type == tIdentifier && (peekTok ts).type == 58 || (peekTok ts).type == 63) = true then
        .ok (.val (.str t.value), ts) else pAnyOf E te t ts : R PV) := by
      split
      · exact Nat.le.refl
      · exact pAnyOf_fine E hs t ts hk
    generalize (if (t.type == tIdentifier && (peekTok ts).type == 58 || (peekTok ts).type == 63) = true then
        .ok (.val (.str t.value), ts) else pAnyOf E te t ts : R PV) = r at hkey
    cases r with
    | error e => exact hkey.of_err
    | ok y =>
      obtain ⟨key, ts'⟩ := y
      have hkey : ts'.length ≤ ts.length := hkey
      dsimp only
      have hop : (if ((peekTok ts').type == 63) = true then ts'.tail else ts').length ≤ ts.length := by
        split
        · have := tail_le ts'; omega
        · exact hkey
      generalize (if ((peekTok ts').type == 63) = true then ts'.tail else ts') = ts2 at hop
      split
      · split
        · exact Fine.err (by intro h; cases h)
        · have hsz := size_peek ts2.tail
          have htl := tail_le ts2
          have h1 := pAnyOf_fine E hs (peekTok ts2.tail) ts2.tail.tail (by omega)
          have hl : ts2.tail.tail.length ≤ ts2.length := by simp; omega
          cases hr : pAnyOf E te (peekTok ts2.tail) ts2.tail.tail with
          | error e => rw [hr] at h1; exact h1.of_err.mono (by omega)
          | ok z => rw [hr] at h1; exact Nat.le_trans h1 (by omega)
      · split
        · exact Fine.err (by intro h; cases h)
        · exact hop

theorem listLoop_fine {k : Nat} (E : PEnv) {te : Sub} (hs : FineSub k te) {endChar : Nat} (hec : endChar ≠ 0) :
    ∀ (n : Nat) (ell : Bool) (x : Nat) (acc : List Elem) (ts : List Token), ts.length < n → ts.length < k →
      Fine ts.length (listLoop E te endChar n ell x acc ts)
  | 0, _, _, _, ts, h, _ => by omega
  | n + 1, ell, x, acc, ts, h, hk => by
    -- an element and what follows it
    have el : ∀ (ell : Bool) (x : Nat) (acc : List Elem) (t : Token) (ts' : List Token), size t ts' ≤ ts.length → Fine ts.length
        (if t.type = endChar then .ok ((ell, x, acc), ts')
         else
          match pElement E te t x ts' with
          | .error e => .error e
          | .ok ((e, x), ts) =>
            if (peekTok ts).type = endChar then .ok ((ell, x, acc ++ e.toList), ts.tail)
            else if (peekTok ts).type ≠ 44 then .error (.syntax (peekTok ts))
            else listLoop E te endChar n ell x (acc ++ e.toList) ts.tail : R (Bool × Nat × List Elem)) := by
      intro ell x acc t ts' hsz
      have hl := size_le t ts'
      split
      · exact (show ts'.length ≤ ts.length by omega)
      · have h1 := pElement_fine E hs t x ts' (by omega)
        cases hr : pElement E te t x ts' with
        | error e => rw [hr] at h1; exact h1.of_err.mono (by omega)
        | ok y =>
          obtain ⟨⟨e, x'⟩, ts2⟩ := y
          rw [hr] at h1
          have h1 : ts2.length ≤ _ := h1
          dsimp only
          have ht := tail_le ts2
          split
          · exact Nat.le_trans ht (by omega)
          · split
            · exact Fine.err (by intro h; cases h)
            · rename_i h44
              have h44 : (peekTok ts2).type = 44 := Decidable.byContradiction h44
              have hpos := peek_ne_nil h44 (by decide)
              have htl : ts2.tail.length = ts2.length - 1 := by simp
              exact (listLoop_fine E hs hec n ell x' _ ts2.tail (by omega) (by omega)).mono (by omega)
    rw [listLoop]
    dsimp only
    have ht := tail_le ts
    have htt := tail_le ts.tail
    have hp1 := size_peek ts
    have hp2 := size_peek ts.tail
    split
    · split
      · exact Nat.le_trans htt ht
      · split
        · exact Fine.err (by intro h; cases h)
        · have h1 := pAnyOf_fine E hs (peekTok ts.tail) ts.tail.tail (by omega)
          cases hr : pAnyOf E te (peekTok ts.tail) ts.tail.tail with
          | error e => rw [hr] at h1; exact h1.of_err.mono (by omega)
          | ok y =>
            obtain ⟨v, ts2⟩ := y
            rw [hr] at h1
            have h1 : ts2.length ≤ _ := h1
            dsimp only
            have ht2 := tail_le ts2
            have hp3 := size_peek ts2
            cases Types.newArrayType O v.asType 0 maxInt with
            | none => exact Fine.err (by intro h; cases h)
            | some et => exact el true 0 _ _ ts2.tail (by omega)
    · exact el ell x acc (peekTok ts) ts.tail hp1

theorem makeTuple_ne (es : List Elem) (v : Bool) : makeTuple es v ≠ .error .fuel := by
  have hp : ∀ {o : Option Ty}, orPanic o ≠ .error .fuel := by intro o h; cases o <;> cases h
  unfold makeTuple
  split
  · intro h; cases h
  · split
    · split
      · intro h; cases h
      · exact hp
    · exact hp

theorem structFields_ne : ∀ (es : List Elem), structFields es ≠ .error .fuel
  | [] => by intro h; cases h
  | .one _ :: _ => by intro h; cases h
  | .entry k o v :: es => by
    have ih := structFields_ne es
    rw [structFields]
    split
    · intro h; cases h
    · cases hs : structFields es with
      | error e => intro h; rw [hs] at ih; cases h; exact ih rfl
      | ok => intro h; cases h

theorem makeStruct_ne (es : List Elem) (v : Bool) : makeStruct es v ≠ .error .fuel := by
  have hp : ∀ {o : Option Ty}, orPanic o ≠ .error .fuel := by intro o h; cases o <;> cases h
  have := structFields_ne es
  unfold makeStruct
  split
  · rename_i h; rw [h] at this; intro h; cases h; exact this rfl
  · exact hp

theorem pList_fine {k : Nat} (E : PEnv) {te : Sub} (hs : FineSub k te) {endChar : Nat} (hec : endChar ≠ 0) (ts : List Token)
    (hk : ts.length < k) : Fine ts.length (pList E te endChar ts) := by
  unfold pList
  have h1 := listLoop_fine E hs hec (ts.length + 1) false (if endChar = 125 then 1 else 0) [] ts (by omega) hk
  cases hr : listLoop E te endChar (ts.length + 1) false (if endChar = 125 then 1 else 0) [] ts with
  | error e => rw [hr] at h1; exact h1.of_err
  | ok x =>
    obtain ⟨⟨ell, x, es⟩, ts'⟩ := x
    rw [hr] at h1
    dsimp only
    have hne : (if es ≠ [] then (if x = 2 then makeStruct es ell else makeTuple es ell) else if x = 0 then .ok (.tuple O [] false)
        else makeStruct [] ell : Except PErr Ty) ≠ .error .fuel := by
      split
      · split
        · exact makeStruct_ne _ _
        · exact makeTuple_ne _ _
      · split
        · intro h; cases h
        · exact makeStruct_ne _ _
    generalize (if es ≠ [] then (if x = 2 then makeStruct es ell else makeTuple es ell) else if x = 0 then .ok (.tuple O [] false)
        else makeStruct [] ell : Except PErr Ty) = r at hne
    cases r with
    | error e => exact Fine.err fun he => hne (by rw [he])
    | ok t => exact h1

theorem paramsLoop_fine {k : Nat} (E : PEnv) {te : Sub} (hs : FineSub k te) : ∀ (n : Nat) (acc : List Elem) (ts : List Token),
    ts.length < n → ts.length < k → Fine ts.length (paramsLoop E te n acc ts)
  | 0, _, _, h, _ => by omega
  | n + 1, acc, ts, h, hk => by
    rw [paramsLoop]
    dsimp only
    have ht := tail_le ts
    split
    · exact ht
    · have hp1 := size_peek ts
      have h1 := pElement_fine E hs (peekTok ts) 0 ts.tail (by omega)
      cases hr : pElement E te (peekTok ts) 0 ts.tail with
      | error e => rw [hr] at h1; exact h1.of_err.mono (by omega)
      | ok y =>
        obtain ⟨⟨e, x'⟩, ts2⟩ := y
        rw [hr] at h1
        have h1 : ts2.length ≤ _ := h1
        dsimp only
        have ht := tail_le ts2
        split
        · exact Nat.le_trans ht (by omega)
        · split
          · exact Fine.err (by intro h; cases h)
          · rename_i h44
            have h44 : (peekTok ts2).type = 44 := Decidable.byContradiction h44
            have hpos := peek_ne_nil h44 (by decide)
            have htl : ts2.tail.length = ts2.length - 1 := by simp
            exact (paramsLoop_fine E hs n _ ts2.tail (by omega) (by omega)).mono (by omega)

theorem pParams_fine {k : Nat} (E : PEnv) {te : Sub} (hs : FineSub k te) (ts : List Token) (hk : ts.length < k) :
    Fine ts.length (pParams E te ts) :=
  (paramsLoop_fine E hs (ts.length + 1) [] ts (by omega) hk).map elemVals

theorem pMap_fine {k : Nat} (E : PEnv) {te : Sub} (hs : FineSub k te) (ts : List Token) (hk : ts.length < k) :
    Fine ts.length (pMap E te ts) := by
  unfold pMap
  dsimp only
  split
  · exact Fine.err (by intro h; cases h)
  · have ht := tail_le ts
    have htt := tail_le ts.tail
    have hp2 := size_peek ts.tail
    have h1 := pAnyOf_fine E hs (peekTok ts.tail) ts.tail.tail (by omega)
    cases hr : pAnyOf E te (peekTok ts.tail) ts.tail.tail with
    | error e => rw [hr] at h1; exact h1.of_err.mono (by omega)
    | ok y =>
      obtain ⟨kt, ts2⟩ := y
      rw [hr] at h1
      have h1 : ts2.length ≤ _ := h1
      dsimp only
      have ht2 := tail_le ts2
      have hp : Fine ts.length (if (peekTok ts2).type = 44 then pParams E te ts2.tail
          else if (peekTok ts2).type ≠ 93 then .error (.syntax (peekTok ts2)) else .ok ([], ts2.tail) : R (List PV)) := by
        split
        · exact (pParams_fine E hs _ (by omega)).mono (by omega)
        · split
          · exact Fine.err (by intro h; cases h)
          · exact Nat.le_trans ht2 (by omega)
      generalize (if (peekTok ts2).type = 44 then pParams E te ts2.tail
          else if (peekTok ts2).type ≠ 93 then .error (.syntax (peekTok ts2)) else .ok ([], ts2.tail) : R (List PV)) = r at hp
      cases r with
      | error e => exact hp.of_err
      | ok z =>
        obtain ⟨szc, ts3⟩ := z
        have hp : ts3.length ≤ _ := hp
        dsimp only
        have ht3 := tail_le ts3
        have hp3 := size_peek ts3
        have h4 := hs (peekTok ts3) ts3.tail (by omega)
        cases hr4 : te (peekTok ts3) ts3.tail with
        | error e => rw [hr4] at h4; exact h4.of_err.mono (by omega)
        | ok z4 =>
          rw [hr4] at h4
          have h4 : z4.2.length ≤ _ := h4
          exact (orPanic_fine (mapType kt.asType z4.1.asType szc) PV.ty z4.2).mono (by omega)

theorem pMeta_fine {k : Nat} (E : PEnv) {te : Sub} (hs : FineSub k te) (ts : List Token) (hk : ts.length < k) :
    Fine ts.length (pMeta E te ts) := by
  unfold pMeta
  dsimp only
  split
  · exact Nat.le.refl
  · have ht := tail_le ts
    have htt := tail_le ts.tail
    have hp2 := size_peek ts.tail
    have h1 := pAnyOf_fine E hs (peekTok ts.tail) ts.tail.tail (by omega)
    cases hr : pAnyOf E te (peekTok ts.tail) ts.tail.tail with
    | error e => rw [hr] at h1; exact h1.of_err.mono (by omega)
    | ok y =>
      obtain ⟨v, ts2⟩ := y
      rw [hr] at h1
      have h1 : ts2.length ≤ _ := h1
      dsimp only
      have ht2 := tail_le ts2
      split
      · exact Fine.err (by intro h; cases h)
      · exact Nat.le_trans ht2 (by omega)

theorem pString_fine {k : Nat} (E : PEnv) {te : Sub} (hs : FineSub k te) (ts : List Token) (hk : ts.length < k) :
    Fine ts.length (pString E te ts) := by
  unfold pString
  split
  · have ht := tail_le ts
    have h1 := pParams_fine E hs ts.tail (by omega)
    cases hr : pParams E te ts.tail with
    | error e => rw [hr] at h1; exact h1.of_err.mono (by omega)
    | ok y =>
      rw [hr] at h1
      have h1 : y.2.length ≤ _ := h1
      exact (orPanic_fine (stringType y.1) PV.ty y.2).mono (by omega)
  · exact Nat.le.refl

theorem pSensitive_fine {k : Nat} (E : PEnv) {te : Sub} (hs : FineSub k te) (ts : List Token) (hk : ts.length < k) :
    Fine ts.length (pSensitive E te ts) := by
  unfold pSensitive
  have ht := tail_le ts
  split
  · have h1 := pParams_fine E hs ts.tail (by omega)
    cases hr : pParams E te ts.tail with
    | error e => rw [hr] at h1; exact h1.of_err.mono (by omega)
    | ok y =>
      rw [hr] at h1
      have h1 : y.2.length ≤ _ := h1
      exact (orPanic_fine (sensitiveType y.1) PV.ty y.2).mono (by omega)
  · split
    · have hp1 := size_peek ts
      have h1 := pAnyOf_fine E hs (peekTok ts) ts.tail (by omega)
      cases hr : pAnyOf E te (peekTok ts) ts.tail with
      | error e => rw [hr] at h1; exact h1.of_err.mono (by omega)
      | ok y =>
        rw [hr] at h1
        have h1 : y.2.length ≤ _ := h1
        dsimp only
        cases exactOf y.1 with
        | none => exact Fine.err (by intro h; cases h)
        | some v => exact Nat.le_trans h1 ht
    · exact Nat.le.refl

theorem pIdentifier_fine {k : Nat} (E : PEnv) {te : Sub} (hs : FineSub k te) (t : Token) (ts : List Token) (hk : ts.length < k) :
    Fine ts.length (pIdentifier E te t ts) := by
  unfold pIdentifier
  have r : ∀ v : PV, Fine ts.length (.ok (v, ts) : R PV) := fun _ => Nat.le.refl
  refine .ite (r _) (.ite (r _) (.ite (r _) (.ite (r _) (.ite (r _) (.ite (r _) (.ite (r _) (.ite (r _)
    (.ite (pMap_fine E hs ts hk) (.ite (pMeta_fine E hs ts hk) (.ite (pString_fine E hs ts hk) (.ite (pSensitive_fine E hs ts hk)
      (.ite (Fine.err (by intro h; cases h)) ?_))))))))))))
  cases E.alias_ t.value with
  | none => exact Fine.err (by intro h; cases h)
  | some u => exact r _

theorem pArray_fine {k : Nat} (E : PEnv) {te : Sub} (hs : FineSub k te) (ts : List Token) (hk : ts.length < k) :
    Fine ts.length (pArray E te ts) := by
  unfold pArray
  have h1 := pParams_fine E hs ts hk
  cases hr : pParams E te ts with
  | error e => rw [hr] at h1; exact h1.of_err
  | ok y =>
    rw [hr] at h1
    have h1 : y.2.length ≤ _ := h1
    dsimp only
    have hp := size_peek y.2
    have ht := tail_le y.2
    have h4 := hs (peekTok y.2) y.2.tail (by omega)
    cases hr4 : te (peekTok y.2) y.2.tail with
    | error e => rw [hr4] at h4; exact h4.of_err.mono (by omega)
    | ok z4 =>
      rw [hr4] at h4
      have h4 : z4.2.length ≤ _ := h4
      exact (orPanic_fine (arrayType z4.1.asType y.1) PV.ty z4.2).mono (by omega)

theorem pAngle_fine (E : PEnv) (ts : List Token) : Fine ts.length (pAngle E ts) := by
  have ht := tail_le ts
  have htt := tail_le ts.tail
  unfold pAngle
  split
  · exact Fine.err (by intro h; cases h)
  · split
    · exact Fine.err (by intro h; cases h)
    · split
      · exact Fine.err (by intro h; cases h)
      · exact Nat.le_trans htt ht

theorem pInteger_fine (E : PEnv) (t : Token) (ts : List Token) : Fine ts.length (pInteger E t ts) := by
  have ht := tail_le ts
  have htt := tail_le ts.tail
  unfold pInteger
  dsimp only
  split
  · split
    · exact (orPanic_fine _ PV.ty _).mono (by omega)
    · split
      · exact (orPanic_fine _ PV.ty _).mono (by omega)
      · exact (orPanic_fine _ PV.ty _).mono (by omega)
  · exact Nat.le.refl

theorem pFloat_fine (E : PEnv) (t : Token) (ts : List Token) : Fine ts.length (pFloat E t ts) := by
  have ht := tail_le ts
  have htt := tail_le ts.tail
  unfold pFloat
  dsimp only
  split
  · split
    · exact (orPanic_fine _ PV.ty _).mono (by omega)
    · exact (orPanic_fine _ PV.ty _).mono (by omega)
  · exact Nat.le.refl

theorem pDotRange_fine (E : PEnv) (t : Token) (ts : List Token) : Fine ts.length (pDotRange E t ts) := by
  have ht := tail_le ts
  unfold pDotRange
  dsimp only
  split
  · exact (orPanic_fine _ PV.ty _).mono (by omega)
  · split
    · exact (orPanic_fine _ PV.ty _).mono (by omega)
    · exact Fine.err (by intro h; cases h)

theorem typeExpression_fine (E : PEnv) : ∀ (n : Nat), FineSub n (typeExpression E n)
  | 0, _, _, h => by omega
  | n + 1, t, ts, h => by
    have hs := typeExpression_fine E n
    have hl : t.type ≠ tEnd → ts.length < n := fun ht => by rw [size_ne ht] at h; omega
    have ht := tail_le ts
    rw [typeExpression]
    split
    · rename_i ht; exact pList_fine E hs (by decide) ts (hl (by rw [ht]; decide))
    split
    · rename_i htt
      have hl := hl (by rw [htt]; decide)
      have hp1 := size_peek ts
      have h1 := pAnyOf_fine E hs (peekTok ts) ts.tail (by omega)
      cases hr : pAnyOf E (typeExpression E n) (peekTok ts) ts.tail with
      | error e => rw [hr] at h1; exact h1.of_err.mono (by omega)
      | ok y =>
        rw [hr] at h1
        have h1 : y.2.length ≤ _ := h1
        dsimp only
        split
        · exact Fine.err (by intro h; cases h)
        · have := tail_le y.2
          exact Nat.le_trans this (by omega)
    split
    · rename_i ht; exact pArray_fine E hs ts (hl (by rw [ht]; decide))
    split
    · exact pAngle_fine E ts
    split
    · exact pInteger_fine E t ts
    split
    · exact pFloat_fine E t ts
    split
    · exact pDotRange_fine E t ts
    split
    · rename_i ht
      split
      · exact Fine.err (by intro h; cases h)
      · exact pIdentifier_fine E hs t ts (hl (by rw [ht]; decide))
    split
    · exact Nat.le.refl
    split
    · split
      · exact Nat.le.refl
      · exact Fine.err (by intro h; cases h)
    · exact Fine.err (by intro h; cases h)

/-- The fuel of `parseTokens` is enough. -/
theorem parseTokens_total (E : PEnv) (ts : List Token) : parseTokens E ts ≠ .error .fuel := by
  unfold parseTokens
  have hp := size_peek ts
  have h1 := pAnyOf_fine E (typeExpression_fine E (ts.length + 1)) (peekTok ts) ts.tail (by omega)
  intro h
  cases hr : pAnyOf E (typeExpression E (ts.length + 1)) (peekTok ts) ts.tail with
  | error e => rw [hr] at h1 h; cases h; exact h1
  | ok y =>
    rw [hr] at h
    dsimp only at h
    split at h <;> cases h

end Verif.Text
