import Verif.Stream.BytesOnly
import Verif.Stream.JsonRead
/-!
# Lemmas: what is read without a panic is a JSON value
-/
set_option autoImplicit false
set_option linter.unusedVariables false
set_option linter.unusedSimpArgs false
namespace Verif.Stream
open Verif.Value (Str runeLen)

/-- `decodeElem` has read something, or the end of the collection. -/
def Read (m : TState) (stop : Option JTok) (stk : List TState) (s : Str) (T' : List JTok) (oe : Option Ev) : Prop :=
  ((∃ e, oe = some e) ∧ ∃ ts s' n' m', Lexes s ts s' ∧ Item m ts m' ∧ T' = tokenStream n' m' stk s') ∨
  (oe = none ∧ ∃ t s' n' m1 stk', some t = stop ∧ Lexes s [t] s' ∧ m ≠ .objectColon ∧ stk = m1 :: stk' ∧ T' = tokenStream n' m1.after stk' s')

/-- A `decodeElem` that reads as it should -/
def Reads (elem : List JTok → Out (List JTok × Option Ev)) (stop : Option JTok) : Prop :=
  ∀ (n : Nat) (m : TState) (stk : List TState) (s : Str) (T' : List JTok) (oe : Option Ev), Calls m stop →
    elem (tokenStream n m stk s) = .ok (T', oe) → Read m stop stk s T' oe

theorem jloop_ok {elem : List JTok → Out (List JTok × Option Ev)} {k : Nat} {T T' : List JTok} {es : List Ev}
    (h : jloop elem (k + 1) T = .ok (T', es)) :
    elem T = .ok (T', none) ∨ ∃ T1 e es', elem T = .ok (T1, some e) ∧ jloop elem k T1 = .ok (T', es') := by
  rw [jloop] at h
  split at h
  · cases h
  · cases h
  · rename_i h1; cases h; exact .inl h1
  · rename_i T1 e h1
    split at h
    · cases h
    · cases h
    · rename_i h2; cases h; exact .inr ⟨_, _, _, h1, h2⟩

theorem loop_array {elem : List JTok → Out (List JTok × Option Ev)} (he : Reads elem (some .rbrack)) :
    ∀ (k n : Nat) (m m1 : TState) (stk : List TState) (s : Str) (T' : List JTok) (es : List Ev), m = .arrayStart ∨ m = .arrayComma →
    jloop elem k (tokenStream n m (m1 :: stk) s) = .ok (T', es) → ∃ ts s' n', Lexes s ts s' ∧ T' = tokenStream n' m1.after stk s' ∧
      (m = .arrayStart → JVal ([.lbrack] ++ ts)) ∧ (m = .arrayComma → ∀ pre, JElems pre → JVal ([.lbrack] ++ pre ++ ts))
  | 0, _, _, _, _, _, _, _, _, h => by cases h
  | k + 1, n, m, m1, stk, s, T', es, hm, h => by
    have hc : Calls m (some .rbrack) := by
      rcases hm with rfl | rfl
      · exact .first
      · exact .next
    rcases jloop_ok h with h | ⟨T1, e, es', h, h'⟩
    · rcases he n m _ s T' none hc h with ⟨⟨e, he⟩, _⟩ | ⟨_, t, s', n', m2, stk', ht, hl, _, hs, rfl⟩
      · cases he
      · cases ht
        cases hs
        exact ⟨_, s', n', hl, rfl, fun _ => .arr0, fun _ pre hp => .arr pre hp⟩
    · rcases he n m _ s T1 (some e) hc h with ⟨_, ts, s', n', m', hl, hi, rfl⟩ | ⟨h0, _⟩
      · rcases hm with rfl | rfl
        · cases hi with
          | val _ v _ hv =>
            obtain ⟨ts', s2, n2, hl2, hT, _, hj⟩ := loop_array he k n' .arrayComma m1 stk s' T' es' (.inr rfl) h'
            refine ⟨ts ++ ts', s2, n2, lexes_append hl hl2, hT, fun _ => ?_, fun h => by cases h⟩
            simpa using hj rfl ts (.one ts hv)
        · cases hi with
          | val _ v hm0 hv => cases hm0
          | more v hv =>
            obtain ⟨ts', s2, n2, hl2, hT, _, hj⟩ := loop_array he k n' .arrayComma m1 stk s' T' es' (.inr rfl) h'
            refine ⟨.comma :: v ++ ts', s2, n2, lexes_append hl hl2, hT, fun h => (by cases h), fun _ pre hp => ?_⟩
            simpa using hj rfl _ (.more pre v hp hv)
      · cases h0

theorem loop_object {elem : List JTok → Out (List JTok × Option Ev)} (he : Reads elem (some .rbrace)) :
    ∀ (k n : Nat) (m m1 : TState) (stk : List TState) (s : Str) (T' : List JTok) (es : List Ev),
    m = .objectStart ∨ m = .objectComma ∨ m = .objectColon →
    jloop elem k (tokenStream n m (m1 :: stk) s) = .ok (T', es) → ∃ ts s' n', Lexes s ts s' ∧ T' = tokenStream n' m1.after stk s' ∧
      (m = .objectStart → JVal ([.lbrace] ++ ts)) ∧ (m = .objectComma → ∀ pre, JMembers pre → JVal ([.lbrace] ++ pre ++ ts)) ∧
      (m = .objectColon → ∀ pre, (∀ v, JVal v → JMembers (pre ++ [.colon] ++ v)) → JVal ([.lbrace] ++ pre ++ ts))
  | 0, _, _, _, _, _, _, _, _, h => by cases h
  | k + 1, n, m, m1, stk, s, T', es, hm, h => by
    have hc : Calls m (some .rbrace) := by
      rcases hm with rfl | rfl | rfl
      · exact .key
      · exact .nextKey
      · exact .colon
    rcases jloop_ok h with h | ⟨T1, e, es', h, h'⟩
    · rcases he n m _ s T' none hc h with ⟨⟨e, he⟩, _⟩ | ⟨_, t, s', n', m2, stk', ht, hl, hn, hs, rfl⟩
      · cases he
      · cases ht
        cases hs
        exact ⟨_, s', n', hl, rfl, fun _ => .obj0, fun _ pre hp => .obj pre hp, fun h => absurd h hn⟩
    · rcases he n m _ s T1 (some e) hc h with ⟨_, ts, s', n', m', hl, hi, rfl⟩ | ⟨h0, _⟩
      · cases hi with
        | val _ v hm0 hv => rcases hm with rfl | rfl | rfl <;> cases hm0
        | more v hv => simp at hm
        | key kk =>
          obtain ⟨ts', s2, n2, hl2, hT, _, _, hj⟩ := loop_object he k n' .objectColon m1 stk s' T' es' (.inr (.inr rfl)) h'
          refine ⟨[.str kk] ++ ts', s2, n2, lexes_append hl hl2, hT, fun _ => ?_, fun h => (by cases h), fun h => (by cases h)⟩
          simpa using hj rfl [.str kk] fun v hv => .one kk v hv
        | nextKey kk =>
          obtain ⟨ts', s2, n2, hl2, hT, _, _, hj⟩ := loop_object he k n' .objectColon m1 stk s' T' es' (.inr (.inr rfl)) h'
          refine ⟨[.comma, .str kk] ++ ts', s2, n2, lexes_append hl hl2, hT, fun h => (by cases h), fun _ pre hp => ?_, fun h => (by cases h)⟩
          have := hj rfl (pre ++ [.comma, .str kk]) fun v hv => by simpa using JMembers.more pre kk v hp hv
          simpa using this
        | member v hv =>
          obtain ⟨ts', s2, n2, hl2, hT, _, hj, _⟩ := loop_object he k n' .objectComma m1 stk s' T' es' (.inr (.inl rfl)) h'
          refine ⟨.colon :: v ++ ts', s2, n2, lexes_append hl hl2, hT, fun h => (by cases h), fun h => (by cases h), fun _ pre hp => ?_⟩
          have := hj rfl (pre ++ [.colon] ++ v) (hp v hv)
          simpa using this
      · cases h0

theorem item_key {ts : List JTok} {m' : TState} (h : Item .objectStart ts m') : ∃ k, ts = [.str k] ∧ m' = .objectColon := by
  cases h with
  | val _ _ hm0 _ => cases hm0
  | key k => exact ⟨k, rfl, rfl⟩

theorem item_member {ts : List JTok} {m' : TState} (h : Item .objectColon ts m') : ∃ v, ts = .colon :: v ∧ JVal v ∧ m' = .objectComma := by
  cases h with
  | val _ _ hm0 _ => cases hm0
  | member v hv => exact ⟨v, rfl, hv, rfl⟩

/-- `decodeElem` reads as it should. -/
theorem jelem_reads (E : JEnv) (rk : Str) : ∀ (f : Nat) (stop : Option JTok), Reads (jelem E rk f stop) stop
  | 0, stop => fun _ _ _ _ _ _ _ h => by cases h
  | f + 1, stop => by
    intro n m stk s T' oe hc h
    cases hT : tokenStream n m stk s with
    | nil => rw [hT] at h; cases h
    | cons t T =>
      rw [hT] at h
      obtain ⟨ps, n', m', stk', s', hl, rfl, hcase⟩ := head_cases hc hT
      rw [jelem.eq_def] at h
      dsimp only at h
      split at h
      · rename_i hstop
        cases h
        rcases hcase with ⟨hs, _⟩ | ⟨rfl, _⟩ | ⟨rfl, _⟩ | ⟨_, rfl, hn, m1, rfl, rfl⟩
        · cases hc <;> cases hstop <;> cases hs
        · cases hc <;> cases hstop
        · cases hc <;> cases hstop
        · exact .inr ⟨rfl, t, s', n', m1, stk', hstop, hl, hn, rfl, rfl⟩
      · rename_i hstop
        rcases hcase with ⟨hs, rfl, hi⟩ | ⟨rfl, rfl, m1, rfl, hv⟩ | ⟨rfl, rfl, m1, rfl, hv⟩ | ⟨h0, _⟩
        · have : ∃ e, (Out.ok (tokenStream n' m' stk' s', some e) : Out (List JTok × Option Ev)) = .ok (T', oe) := by
            cases t <;> simp only [JTok.scalar, Bool.false_eq_true] at hs <;> dsimp only at h
            · exact ⟨_, h⟩
            · split at h <;> exact ⟨_, h⟩
            · exact ⟨_, h⟩
            · exact ⟨_, h⟩
          obtain ⟨e, he⟩ := this
          cases he
          exact .inl ⟨⟨e, rfl⟩, _, s', n', m', hl, hi, rfl⟩
        · dsimp only at h
          obtain ⟨x, h1, h2⟩ := Out.map_ok h
          cases h2
          obtain ⟨ts, s2, n2, hl2, hT2, hj, _⟩ := loop_array (jelem_reads E rk f (some .rbrack)) f n' _ m1 stk s' x.1 x.2 (.inl rfl) h1
          refine .inl ⟨⟨_, rfl⟩, _, s2, n2, m1.after, lexes_append hl hl2, ?_, hT2⟩
          have := hv _ (hj rfl)
          simpa using this
        · dsimp only at h
          have hobj : ∀ T' es, jloop (jelem E rk f (some .rbrace)) f (tokenStream n' .objectStart (m1 :: stk) s') = .ok (T', es) →
              ∃ ts s2 n2, Lexes s ts s2 ∧ Item m ts m1.after ∧ T' = tokenStream n2 m1.after stk s2 := by
            intro T' es h1
            obtain ⟨ts, s2, n2, hl2, hT2, hj, _⟩ := loop_object (jelem_reads E rk f (some .rbrace)) f n' _ m1 stk s' T' es (.inl rfl) h1
            refine ⟨_, s2, n2, lexes_append hl hl2, ?_, hT2⟩
            have := hv _ (hj rfl)
            simpa using this
          split at h
          · cases h
          · rename_i k ts' hts
            split at h
            · obtain ⟨x, h1, h2⟩ := Out.map_ok h
              cases h2
              obtain ⟨ts, s2, n2, hl2, hi, hT2⟩ := hobj x.1 x.2 h1
              exact .inl ⟨⟨_, rfl⟩, ts, s2, n2, m1.after, hl2, hi, hT2⟩
            · rename_i hk
              replace hk := Decidable.of_not_not hk
              subst hk
              split at h
              · rename_i x ts''
                split at h
                · rename_i i hi
                  split at h
                  · rename_i rest
                    cases h
                    obtain ⟨ps1, n1, ma, stk1, sa, hl1, hT1, hc1⟩ := head_cases .key hts
                    rcases hc1 with ⟨_, rfl, hi1⟩ | ⟨h0, _⟩ | ⟨h0, _⟩ | ⟨h0, _⟩ <;> try cases h0
                    obtain ⟨kk, hk1, rfl⟩ := item_key hi1
                    obtain ⟨ps2, n2, mb, stk2, sb, hl2, hT2, hc2⟩ := head_cases .colon hT1.symm
                    rcases hc2 with ⟨_, rfl, hi2⟩ | ⟨h0, _⟩ | ⟨h0, _⟩ | ⟨h0, _⟩ <;> try cases h0
                    obtain ⟨v, hk2, hv2, rfl⟩ := item_member hi2
                    obtain ⟨ps3, n3, mc, stk3, sc, hl3, hT3, hc3⟩ := head_cases .nextKey hT2.symm
                    rcases hc3 with ⟨h0, _⟩ | ⟨h0, _⟩ | ⟨h0, _⟩ | ⟨_, rfl, _, m2, hs3, rfl⟩ <;> try cases h0
                    cases hs3
                    rw [hk1] at hl1
                    rw [hk2] at hl2
                    refine .inl ⟨⟨_, rfl⟩, _, sc, n3, m1.after, lexes_append hl (lexes_append hl1 (lexes_append hl2 hl3)), ?_, hT3⟩
                    have := hv _ (.obj _ (.one kk v hv2))
                    simpa using this
                  · cases h
                · cases h
              · cases h
        · exact absurd h0 hstop

/-- What `UnmarshalJSON` reads begins with a JSON value, if bytes that are not UTF-8 and surrogates are overlooked. -/
theorem unmarshalBytes_only {D : Decoder} {E : JEnv} {fuel : Nat} {bs : Str} {x : Heap × Ref} (h : unmarshalBytes D E fuel bs = .ok x) :
    ∃ p rest ts, bs = p ++ rest ∧ JVal ts ∧ Spells true ts p := by
  unfold unmarshalBytes at h
  split at h
  · cases h
  · cases h
  · cases h
  · rename_i T' e h1
    rcases jelem_reads E D.dialect.refKey fuel none _ _ _ _ _ _ .top h1 with ⟨_, ts, s', n', m', hl, hi, _⟩ | ⟨h0, _⟩
    · obtain ⟨p, hp, hs⟩ := lexes_spells hl
      cases hi with
      | val _ v _ hv => exact ⟨p, s', ts, hp, hv, hs⟩
    · cases h0

end Verif.Stream
