import Verif.Pcore.Parser
import Verif.Text.ParserTotal
/-!
# The pcore parser needs no more fuel than there are tokens
-/
set_option autoImplicit false
set_option linter.unusedVariables false
namespace Verif.Pcore
open Verif.Value (Str Val F64)
open Verif.Types (Ty Oid maxInt)
open Verif.Text (Token Err PErr PEnv R peekTok orPanic tEnd Fine size size_le size_peek size_ne)

/-- `sub` is fine on less than `k` tokens. -/
def FineSub (k : Nat) (sub : Sub) : Prop := ∀ t ts, size t ts < k → Fine ts.length (sub t ts)

theorem tail_lt {ts : List Token} {c : Nat} (h : (peekTok ts).type = c) (hc : c ≠ tEnd) : ts.tail.length < ts.length := by
  cases ts with
  | nil => exact absurd h.symm hc
  | cons t ts => simp

theorem fine_map {α β : Type} {k : Nat} {r : R α} (h : Fine k r) (f : α → β) : Fine k (r.map fun x => (f x.1, x.2)) := h.map f

/-- A result without tokens -/
def Calm {α : Type} : Except PErr α → Prop
  | .error .fuel => False
  | _ => True

theorem Calm.fine {α β : Type} {k : Nat} {r : Except PErr α} (h : Calm r) (f : α → β) {ts : List Token} (hts : ts.length ≤ k) :
    Fine k (r.map fun t => (f t, ts)) := by
  cases r with
  | error e => cases e <;> first | exact h.elim | trivial
  | ok x => exact hts

theorem calm_orPanic {α : Type} (o : Option α) : Calm (orPanic o) := by cases o <;> trivial

theorem Calm.map {α β : Type} {r : Except PErr α} (h : Calm r) (f : α → β) : Calm (r.map f) := by
  cases r with
  | error e => cases e <;> first | exact h.elim | trivial
  | ok x => trivial

theorem calm_asType (o : Oid) (v : PV) : Calm (v.asType o) := by
  unfold PV.asType
  split
  · trivial
  · split <;> trivial

theorem calm_structFields (o : Oid) : ∀ es, Calm (structFields o es)
  | [] => trivial
  | (k, v) :: es => by
    have h1 : Calm (structKey (optionalValue k).1) := by
      unfold structKey
      have := calm_asType (.user 0) (optionalValue k).1
      split
      · rename_i h; rw [h] at this; cases ‹PErr› <;> first | exact this.elim | trivial
      · trivial
      · split
        · exact calm_orPanic _
        · trivial
    have h2 := calm_asType (.part o es.length) v
    have h3 := calm_structFields o es
    rw [structFields]
    generalize structKey (optionalValue k).1 = x at *
    generalize v.asType (.part o es.length) = y at *
    generalize structFields o es = z at *
    cases x with
    | error e => cases y <;> cases z <;> cases e <;> first | exact h1.elim | trivial
    | ok a =>
      cases y with
      | error e => cases z <;> cases e <;> first | exact h2.elim | trivial
      | ok b =>
        cases z with
        | error e => cases e <;> first | exact h3.elim | trivial
        | ok c => trivial

theorem calm_argsType (E : Env) (o : Oid) (args : List PV) (nm : Name) : Calm (argsType E o args nm) := by
  cases nm <;> simp only [argsType] <;> first | exact calm_orPanic _ | trivial | skip
  unfold structType
  split
  · have := calm_structFields o (by assumption)
    split
    · rename_i h; rw [h] at this; cases ‹PErr› <;> first | exact this.elim | trivial
    · exact calm_orPanic _
  · trivial

theorem calm_bareType (E : Env) (o : Oid) (nm : Name) : Calm (bareType E o nm) := by
  cases nm <;> simp only [bareType] <;> first | exact calm_orPanic _ | trivial

theorem calm_putEntry (k v : PV) : ∀ es, Calm (putEntry k v es)
  | [] => trivial
  | (k', v') :: es => by
    rw [putEntry]
    split
    · trivial
    · trivial
    · exact (calm_putEntry k v es).map _

theorem calm_convert : ∀ (es : List Elem) (en : Option (List (PV × PV))), Calm (convert en es)
  | [], none => trivial
  | [], some _ => trivial
  | .entry k v :: r, none => by rw [convert]; exact calm_convert r _
  | .entry k v :: r, some en => by
    rw [convert]
    have := calm_putEntry k v en
    split
    · rename_i h; rw [h] at this; cases ‹PErr› <;> first | exact this.elim | trivial
    · exact calm_convert r _
  | .one v :: r, none => by rw [convert]; exact (calm_convert r _).map _
  | .one v :: r, some en => by rw [convert]; exact (calm_convert r _).map _

theorem fine_listLoop {k : Nat} {sub : Sub} (hs : FineSub k sub) (et : Nat) : ∀ (n : Nat) (lhs : Option PV) (ts : List Token), ts.length < n →
    ts.length < k → Fine ts.length (listLoop sub et n lhs ts)
  | 0, _, _, h, _ => absurd h (Nat.not_lt_zero _)
  | n + 1, lhs, ts, hn, hk => by
    have ht : ts.tail.length ≤ ts.length := by simp
    rw [listLoop]
    split
    · exact ht
    · have h1 := hs (peekTok ts) ts.tail (Nat.lt_of_le_of_lt (size_peek ts) hk)
      split
      · rename_i h; rw [h] at h1; exact (h1.mono ht).of_err
      · rename_i v us h
        rw [h] at h1
        have h1 : us.length ≤ ts.tail.length := h1
        have hu : us.tail.length ≤ us.length := by simp
        dsimp only
        have hlt : ∀ c, (peekTok us).type = c → c ≠ tEnd → us.tail.length < n := by
          intro c hc hc'
          have := tail_lt hc hc'
          omega
        split
        · show us.tail.length ≤ _; omega
        · split
          · rename_i hc
            have := tail_lt hc (by decide)
            exact ((fine_listLoop hs et n none us.tail (hlt _ hc (by decide)) (by omega)).map _).mono (by omega)
          · split
            · rename_i hc
              have := tail_lt hc (by decide)
              split
              · exact (fine_listLoop hs et n (some v) us.tail (hlt _ hc (by decide)) (by omega)).mono (by omega)
              · trivial
            · trivial

theorem fine_pList {k : Nat} {sub : Sub} (hs : FineSub k sub) (et : Nat) (ts : List Token) (hk : ts.length < k) :
    Fine ts.length (pList sub et ts) := by
  unfold pList
  have := fine_listLoop hs et (ts.length + 1) none ts (Nat.lt_succ_self _) hk
  split
  · rename_i h; rw [h] at this; exact this.of_err
  · rename_i es us h
    rw [h] at this
    exact (calm_convert es none).fine id this

theorem fine_hashLoop {k : Nat} {sub : Sub} (hs : FineSub k sub) : ∀ (n : Nat) (ts : List Token), ts.length < n → ts.length < k →
    Fine ts.length (hashLoop sub n ts)
  | 0, _, h, _ => absurd h (Nat.not_lt_zero _)
  | n + 1, ts, hn, hk => by
    have ht : ts.tail.length ≤ ts.length := by simp
    rw [hashLoop]
    split
    · exact ht
    · have h1 := hs (peekTok ts) ts.tail (Nat.lt_of_le_of_lt (size_peek ts) hk)
      split
      · rename_i h; rw [h] at h1; exact (h1.mono ht).of_err
      · rename_i v us h
        rw [h] at h1
        have h1 : us.length ≤ ts.tail.length := h1
        split
        · trivial
        · rename_i hr
          have hr : (peekTok us).type = tRocket := Classical.not_not.1 hr
          have hlt := tail_lt hr (by decide)
          have h2 := hs (peekTok us.tail) us.tail.tail (Nat.lt_of_le_of_lt (size_peek us.tail) (by omega))
          dsimp only
          split
          · rename_i h; rw [h] at h2; exact (h2.mono (by simp at *; omega)).of_err
          · rename_i v' xs h'
            rw [h'] at h2
            have h2 : xs.length ≤ us.tail.tail.length := h2
            have h3 : us.tail.tail.length ≤ us.tail.length := by simp
            have h4 : xs.tail.length ≤ xs.length := by simp
            split
            · show xs.tail.length ≤ _; omega
            · split
              · rename_i hc
                have := tail_lt hc (by decide)
                exact ((fine_hashLoop hs n xs.tail (by omega) (by omega)).map _).mono (by omega)
              · trivial

theorem fine_knownType (E : Env) {k : Nat} {sub : Sub} (hs : FineSub k sub) (nm : Name) (ts : List Token) (hk : ts.length < k) :
    Fine ts.length (knownType E sub nm ts) := by
  unfold knownType
  split
  · exact Nat.le.refl
  · split
    · have ht : ts.tail.length ≤ ts.length := by simp
      have := fine_pList hs 93 ts.tail (by omega)
      split
      · rename_i h; rw [h] at this; exact (this.mono ht).of_err
      · rename_i args us h
        rw [h] at this
        exact (calm_argsType E _ args nm).fine _ (Nat.le_trans this ht)
    · exact (calm_bareType E _ nm).fine _ Nat.le.refl

theorem fine_pName (E : Env) {k : Nat} {sub : Sub} (hs : FineSub k sub) (t : Token) (ts : List Token) (hk : ts.length < k) :
    Fine ts.length (pName E sub t ts) := by
  unfold pName
  split
  · trivial
  · rename_i nm _
    have := fine_knownType E hs nm ts hk
    split
    · rename_i h; rw [h] at this; exact this.of_err
    · rename_i h
      rw [h] at this
      split
      · trivial
      · exact this

theorem fine_element (E : Env) : ∀ n, FineSub n (element E n)
  | 0 => fun _ _ h => absurd h (Nat.not_lt_zero _)
  | n + 1 => by
    intro t ts hk
    have ih := fine_element E n
    rw [element]
    have key : ∀ c, t.type = c → c ≠ tEnd → ts.length < n := by
      intro c hc hc'
      have := size_ne (t := t) (ts := ts) (by rw [hc]; exact hc')
      omega
    split
    · exact (fine_hashLoop ih _ ts (Nat.lt_succ_self _) (key _ (by assumption) (by decide))).map _
    · split
      · exact (fine_pList ih 93 ts (key _ (by assumption) (by decide))).map _
      · split
        · exact Nat.le.refl
        · split
          · exact Nat.le.refl
          · split
            · unfold pIdentifier
              repeat' split
              all_goals first | exact Nat.le.refl | trivial
            · split
              · exact Nat.le.refl
              · split
                · split
                  · exact Nat.le.refl
                  · trivial
                · split
                  · exact fine_pName E ih t ts (key _ (by assumption) (by decide))
                  · trivial

theorem size_peek_lt (ts : List Token) : size (peekTok ts) ts.tail < ts.length + 1 := Nat.lt_succ_of_le (size_peek ts)

/-- The fuel is enough. -/
theorem parseTokens_fuel (E : Env) (ts : List Token) : Calm (parseTokens E ts) := by
  unfold parseTokens
  have h1 := fine_element E (ts.length + 1) (peekTok ts) ts.tail (size_peek_lt ts)
  split
  · rename_i h; rw [h] at h1; cases ‹PErr› <;> first | exact h1.elim | trivial
  · rename_i v us h
    split
    · dsimp only
      have h2 := fine_element E (us.tail.length + 1) (peekTok us.tail) us.tail.tail (size_peek_lt us.tail)
      split
      · rename_i h; rw [h] at h2; cases ‹PErr› <;> first | exact h2.elim | trivial
      · split <;> trivial
    · split <;> trivial

end Verif.Pcore
